# Formal model of tup — design

The source is /repo (gittup/tup, C).  Nothing was built or run: the model was written by reading the code, function by
function.  Paths below are relative to /repo.

## Layout

    lean/Verif/<Area>/Model.lean   executable definitions; each cites the C lines it models and says what is simplified
    lean/Verif/<Area>/Spec.lean    what is claimed, written without the model's functions
    lean/Verif/<Area>/Props.lean   the property theorems, with concrete cases beside them
    lean/Verif/<Area>/*.lean       lemmas (Lemmas, Inv, Run, Sim, ...)

`properties.jsonl` has the properties in English, `MANIFEST.json` maps them to theorems, `AXIOMS.md` lists the axioms of
each of these theorems, `seeded/LOG.jsonl` has the wrong programs that the theorems were tested against.

## Trusted base

* The kernel of Lean 4.33.0 and the axioms `propext`, `Classical.choice`, `Quot.sound`.  No theorem depends on another
  axiom (AXIOMS.md, from `#print axioms`).  There are no axioms of our own, no `sorry`, no `native_decide`, no
  `bv_decide`, no `implemented_by`.
* The reading of the C code, recorded above every definition.
* The specifications: the `Spec.lean` files, and the statements in the `Props.lean` files.
* SQLite executes the statements as documented, and its transactions are atomic and durable.
* The kernel of the operating system: it looks up names before it calls the FUSE server (C22), `fcntl` locks exclude
  (C44), inotify delivers events in order and the two events of a move next to each other (C45).
* Memory allocation succeeds, and system calls and SQL statements succeed, unless the comment of the model says that the
  failure is an outcome (C43, C48, C52 and C59 have such failures; elsewhere the code returns -1 and the update ends).

## Conventions

* A C string is `Str = List Char`, one `Char` for one byte.  Where signedness or the number of bits matters, it is
  modelled (`Vardict`, `Tree`, `Printf`, `Options`, `Strings`).
* Undefined behaviour (access outside of a buffer, use of freed memory, overflow of an `int`, use of uninitialised
  memory) is an outcome of its own wherever the code can get there.  Theorems either show that it does not occur, or say
  exactly when it does.
* The database (`Verif/Db`) is one function from ids to rows for each table of the schema.  All areas that read or write
  the database use that model.
* The trees of src/bsd/tree.h are modelled as trees with arbitrary rotations (`Verif/Tree`); elsewhere a tree that is
  only searched and walked through is the sorted list that `Verif/Tree` shows it to be.
* "Every execution" is: every list of steps of a transition system, without a bound on the number of processes, files,
  events or steps.

## What is modelled, and how it is proved

| id | code | method |
|----|------|--------|
| C01, C02 | if_stmt.c, the dispatch of lines in parser.c (`IfStmt`) | the two bit masks refine a stack of branches; arbitrary meaning of the other directives |
| C03 | parse_tupfile 554-615 (`Lines`) | the scanner in its buffer equals a declarative splitting into lines; the inputs on which it leaves the buffer are characterised |
| C04 | next_path, get_path_list, new_pl (`PathList`) | round trip with quoting; everything accepted is of that form |
| C05 | eval (`Eval`) | equivalence with tokens that are substituted once |
| C06 | tup_printf (`Printf`) | equivalence with templates; exactly when memory is misused |
| C07, C08 | split_command_string, parse_rule, split_input_pattern (`Rules`) | exact characterisation of the parts |
| C09, C54 | set_variable, ifeq, the Lua variable store (`Assign`) | exact for every line |
| C10, C55, C56 | name lists, make_name_list_unique, base/extension/glob offsets (`Names`) | invariant of the totals, order and multiplicity; exact parts of a path |
| C11-C13 | pel_group.c (`Pel`) | walks in an arbitrary tree; a canonical form; exact set of hidden names |
| C14 | get_relative_dir_sep (`Relative`) | the path leads there, and no shorter one does |
| C15, C18 | get_file_var_tree, varsed (`Config`) | grammar of the file; substitution rules |
| C16, C42 | tup_db_read_vars, vardb_compare, env_cb (`VarStore`) | state of all tables before and after; scheduled exactly |
| C17 | save_vardict_file, tup_config_var (`Vardict`) | bytes written and searched: round trip |
| C19, C20, C48, C53 | estring.c, escaping, print_json (`Strings`) | memory cells; readers of shell words and JSON strings as specifications |
| C21, C58 | gitignore, remove_tup_gitignore, write_gitignore_line (`Gitignore`) | text functions; git's pattern matching as specification |
| C22 | fuse_fs.c, handle_open_file, handle_rename, handle_unlink (`Fuse`) | simulation by a private overlay of the tree |
| C23 | write_files, check_actual_outputs (`Links/Out*`) | accepted exactly if the written files are the declared ones |
| C24, C39 | check_actual_inputs, nodes_are_connected (`Links/Inputs*`, `Graph`) | exact links; reachability |
| C25 | tup_db_write_outputs, tup_db_write_inputs (`Links/Write*`) | exact links and flags, invariant kept |
| C26, C47, C49 | tree.h, tent_tree, string_tree, vardb, the comparisons of sorted trees (`Tree`) | refinement of sets and maps, for every way of rotating |
| C27, C50 | do_rule, do_rule_outputs, validate_output (`DoRule`) | invariant over all histories of rules, scans and updates; rejected rules, and a rule that nothing is against is accepted (`Acceptable`, which asks for a database in order: one group per file at most, declared variables only) |
| C28, C29, C36, C38 | build_graph, trim_graph, prune_graph (`Graph`) | invariants of the depth-first search |
| C30-C33 | execute_graph with workers and signals (`Exec`) | invariants over all interleavings; measure for termination |
| C34, C35, C37 | scan, update_work, modify_outputs, crashes (`Update`) | invariant "not flagged means up to date" over all histories of edits, updates and crashes |
| C40 | reclaim_ghosts (`Ghosts`) | invariant and termination of the worklist |
| C41 | tup_file_mod, tup_file_del, tup_del_id_type, ghosts that become files (`Scan`) | exact flags, for any tree of directories |
| C60 | watch_path_internal, tup_scan, tup_entry_get_dir_tree (`FullScan`) | induction over the tree on the disk with a frame (only what lies below one entry is touched) and a relation between the database before and after |
| C61 | process_update_nodes, build_graph_transient_cb, attach_transient_nodes (`Transient`) | invariant while the commands are attached, on top of the one of the depth-first search; ordering from C30 |
| C62 | expand_group, expand_res_file, expand_command (`Expand`) | grammar of the command text; exact result; paths from C14 |
| C63 | mempool_alloc, mempool_free, one pool per thread (`Mempool`) | invariant over all histories of all threads |
| C64 | handle_file_locked, ignore_file, is_ccache_path, process_depfile (`Depfile`) | round trip; invariant over all interleavings of single writes |
| C65 | master_fork_exec, wait_for_my_sid, master_fork_loop, child_waiter, child_wait_notifier (`MasterFork`) | invariant over all interleavings with the place of each request; measure for completion |
| C66 | envdb_set, tup_db_get_environ, the making of `envp` in master_fork.c, fuse_server.c and depfile.c, import (`Environ`) | round trip through a block of memory with bounds |
| C67 | parse and do_rule with `gen_delete_root`, `save_root` and `cmd_delete_root`, split_roots, delete_files, the end of process_create_nodes (`Deletes`, on top of `DoRule`) | invariant over all parses after any history; exact set of unlinked files |
| C68 | process_config_nodes, variant.c, the events that change the lists of tup.config files and variants (`Variants`) | invariant over all histories; exact set of variants in use; witnesses for what the hypotheses exclude |
| C69 | open_tupfile, parser_include_file, parser_include_rules, find_dir_tupid_dt_pg, the beginning of parse (`Include`) | equivalence with an inductive meaning of inclusion; the recorded files decide the result |
| C70 | tup_fuse_add_group, tup_fuse_rm_group, get_finfo, peel, and all requests of several jobs at once (`Mount`, on top of `Fuse`) | invariant over interleavings; simulation of a job among others by the job alone; the way from the path to the job and back |
| C71 | tup_entry_add, new_entry, resolve_parent, rm_entry, change_name, tup_entry_find_name_in_dir_dt, tup_entry_resolve_dirs; tup_db_fill_tup_entry, node_select, node_insert, tup_db_set_*, delete_node, tup_db_select_node_dir_glob, tup_db_get_vardb, load_existing_nodes; tup_db_get_inputs, link_insert, link_remove, delete_sticky_links (`Cache`) | refinement: table with copies refines table alone; invariant over all sequences of calls |
| C72 | generate: the lines for directories, generate_script_mkdir, generate_work; print_tup_entry, write_tup_entry (`Generate`, with the executor of `Exec` and the relative paths of `Relative`) | refinement: a shell that runs the script does what a list of commands in order does |
| C73 | tup_db_create_node_srcid, tup_db_duplicate_directory_structure, get_rel_tent, recurse_delete_variant, delete_variant_dirs, tup_del_id_type for directories, the loop of process_create_nodes (`Mirror`) | invariant over all histories of scans, variants and updates; counterexamples for what is left out |
| C74 | parse, parse_dependent_tupfiles, nl_add_path, tup_db_write_dir_inputs, create_work and the loop of process_create_nodes (`Reparse`) | Tupfiles as arbitrary programs; least fixed point as the meaning; invariant over all histories; witnesses for the circles that are missed |
| C75 | do_rule with and without `refactoring`, find_existing_command, tup_db_create_unique_link, tup_db_write_outputs/inputs/dir_inputs, tup_db_changes (`Refactor`) | both modes of the same function; exact condition for success; counter of changes |
| C76 | version_check, db_backup, tup_db_open, tup_db_create, tup_db_reparse_all (`Upgrade`) | an interpreter for the statements, refined to what the database says; induction over the versions |
| C77 | full_scan_dir, scan_full_deps, find_dir_tupid_dt_pg, get_outside_tup_mtime, add_node_to_tree, check_full_deps_rebuild, recurse_delete_ghost_tree (`External`) | the loop over one list refined to a walk over the tree; invariant over histories; exact condition (`Settled`) for the result to be right |
| C78 | bin.c, parse_rule, parse_input_pattern, path_list_to_nl, eval_path_list, get_name_list, nl_add_bin, do_rule up to the outputs (`Bins`) | joins `Rules`, `PathList`, `Names` and `Execute`; lists refined to the record of commands |
| C79 | nl_add_path, build_name_list_cb, tup_db_select_node_dir_glob, variant_get_srctent (`Lookup`) | exact relation between names and nodes of a database, for any matching function and any order of rows; `glob` of SQLite, relative paths (C14) and the conversion of a node of another type to a group are parameters |
| C80 | tup_fs_readdir, add_dir_entries, fill_actual_directory (`Readdir`) | on top of `Fuse`: the list of a directory is exactly what the private file system of C22 has in it |
| C81 | gen_dir_list, readdir_parser_cb, preload, exec_run_script, export, server_run_script, readdir_parser, tup_fuse_server_get_dir_entries (`RunScript`) | Tupfiles as sequences of lines, scripts as decision trees; the history of the moments at which directories were looked at |
| C82 | todo, check_config_todo, check_create_todo, check_update_todo, todo_work (`Todo`) | on top of `Graph`, `Exec` and `Transient`: the lines that are printed as a relation to the database |
| C83 | find_dir_tupid_dt_pg (with SOTGV_CREATE_DIRS), tup_db_is_generated_dir, tup_db_normal_dir_to_generated, the loop in process_create_nodes, rm_generated_dir, entry_openat_internal (`GenDir`) | on top of `Db`, `Scan` and `Ghosts`: the loop over the set of directories, the removal of entries together with the disk; a directory stands on the disk at the place of its node, and unknown things are one flag per directory |
| C84 | tup_fs_create, open, read, write, release, unlink, rename, link, chmod, chown, truncate, utimens, with open_count and max_open_files; finfo_wait_open_count (`OpenFiles`) | the mappings and files in .tup/tmp as in `Fuse`, with content, permissions and descriptors; what the kernel and libfuse do before they call tup (lookups, names of open files, `.fuse_hidden`) is part of the model and trusted; directories and links are left out |
| C85 | tup.rule, tup.foreach_rule, tup.frule of builtin.lua; tuplua_function_definerule with tuplua_table_to_path_list (`Lua`) | tables are kept in a heap and known by reference, keys are 1, 2, … and strings; Lua itself is trusted, the order in which `lua_next` gives the fields is that of a list; the rest of the parser is that of `Bins`; tup.glob, tup.include and the functions that are not about rules are left out |
| C86 | tup_environ, tup_push_state, tup_pop_state, tup_get_var, tup_set_var, tup_append_assignment of builtin.lua; push_tupfile, pop_tupfile, tup.import, append_table (`LuaVars`) | a script is a list of accesses to variables, with the Tupfiles that are parsed in its middle; values are left open; changes inside of tables that are values, the library debug and scripts that fail are left out |
| C87 | tup.file, tup.base, tup.ext of builtin.lua with match, max_expand, str_gsub and str_match of Lua's lstrlib.c (`LuaNames`) | patterns are given as lists of items, not read from text; only the items that come up; the C locale |
| C88 | find_tup_dir, get_tup_top, get_sub_dir, tup_option_process_ini, init_command, mkdirtree (`Top`) | only directories are in the file system, no symbolic links; system calls that can succeed do; of a database that is made only its directory .tup |
| C89 | print_compile_db, tup_db_create_compile_db, tup_db_print_commandline, compiledb, commandline (`CompileDb`) | the paths of directories and files are inputs (C14 has them); the update before it and the transactions are left out; the reader of JSON in the specification knows no \\u escapes and no empty objects, which never come up |
| C90 | input_and_output_from_cmd, do_ln, server_symlink, the choice in update between do_ln and server_exec, TUP_LN_CMD and TUP_PRESERVE_CMD (`LnCmd`; with `Printf` and `Relative`) | the failure of symlinkat and the write that is noted for the output (C41) are left out; the tree has no symbolic links on the way |
| C91 | add_node_to_tree, find_dir_tupid_dt_pg with SOTGV_CREATE_GHOSTS, add_parser_files_locked, gimme_tent, add_dir_link, rm_dir_link, tup_db_write_dir_inputs, the end of parse (`DirInputs`; with `Db` and `Links`) | paths are given by their names (C11); hidden and outside paths are left out (C68); after an error only the fact is kept, as the transaction is rolled back |
| C92 | get_symlink, add_symlinks, handle_file and handle_open_file for reads (`Symlink`) | readlinkat is given by a specification of the kernel (`Reads`); a failure of malloc is left out; a text of PATH_MAX characters is undefined behaviour |
| C93 | print_name, dump_node, get_hash, the loop of command_name_hash, combine_nodes, dump_graph (`Combine`) | the two hash functions are parameters (command_outgoing_hash and the like are not modelled); shapes, colours and styles of nodes and the order of the edges of one node are left out |
| C94 | start_progress, skip_result, the counters of show_result, percent_complete, get_time_remaining, show_progress (`Progress`) | the computation with floating point numbers in get_time_remaining is a parameter; colour codes and the text of show_result are left out; the counters of jobs are natural numbers |
| C95 | get_log, rotate, logging_enable, log_graph, the name of the file in save_graph (`Logs`) | contents are numbers; mkdirat and fopen do not fail; of the conversions of printf the model has %%, %i and %d, the rest is undefined |
| C96 | dir_empty, create_variant, variant (`MkVariant`), on the file systems of `Symlink` | the kernel's chdir is specified, not computed; mkdir fails only for a name that is there or too long; symlink only if the name is there; the copy made on Windows and the transaction (which nothing is written in) are left out |
| C97 | what the parsing phase does to the tables of the update when the rules change: new, kept and renamed commands, tup_db_write_outputs, add_sticky/rm_sticky, ghosts that become outputs, split_roots, delete_files (`UpdateRules`), on the model of `Update` | the result of parsing is given (its own models: C27, C50, C63, …); ids of nodes are not reused within one parsing; groups, transient files, directories and variants are left out |
| C98 | the loop of the monitor, flush_queue, autoupdate, wait_thread, tup flush, the clearing of the pid by autoupdate, the order of the locks (`AutoUpdate`) | changes are numbered and the handling of one event is a given function that says whether a flag was set (C45); what an update does is C35 and C97; system calls and the database do not fail; a monitor that is stopped or starts over; an autoupdate that could not be started is in the model |
| C99 | the values of TUP_CWD, TUP_VARIANTDIR, TUP_VARIANT_OUTPUTDIR and node variables and their expansion, %d, the functions getcwd, getvariantdir, getvariantoutputdir, getdirectory, getrelativedir and nodevariable of Lua (`TupDirs`) | the expansion of the rest of a text is C05, the relative path C14, that directories of a variant mirror those of the sources C73; what a path leads to in the database is a given function (C15); one variant |
| C100 | tup graph: the command line, graph_cb, the loop, stickies (`GraphCmd`) | printing and --combine are C93 (put together with it in `c100_printed`), --prune is C36; what a name leads to is a given function (C15); order of the edges; errors of the database |
| C101 | tup_send_event, tup_fs_getattr and get_virtual_var, the asking of varsed, the inputs of a command that come from reads and variables (`VarAsk`) | the path walk of the kernel is modelled as one getattr per component, with no cache of names; programs are trees of questions and outputs; the walk of paths to nodes is C40, the check of the links C24; LD_PRELOAD server; errors of the database |
| C102 | tup_db_get_var with its copies, var_ifdef, @(), $(CONFIG_), tup.getconfig (`ConfigVar`) | a Tupfile is a tree of questions with rules at the leaves; what it reads besides is taken to be the same each time (C91, C98, C61 are about that); what else changes the database during parsing is any change that leaves the rows and values of tup.config alone; errors of the database |
| C103 | do_rule with find_existing_command, add_input, tup_db_write_outputs, tup_db_write_inputs (`DoRule`, `Links`) | as for C27 and C50; `display` and the other flags that are compared are one bit, whether they differ; an output that another rule took before in the same update is no output any more when the rule is reached (`c25_stolen`) |
| C104 | dircache.c with wp_callback, monitor_rmdir_cb and what queue_event, handle_event and the loss of events do with the table (`Watch`) | the tree by watches is a list of pairs; how the tree by directories is balanced is a parameter that keeps the order; numbers are below 2^31 (tupid_tree_cmp returns an int); running out of memory and what the events do to the database are not modelled |
| C105 | the file system of a job as for C22 and C80, with commands as arbitrary functions from answers to requests (`Again`, on top of `Fuse` and `Readdir`) | as for C22 and C80; symbolic links are files whose content is their target, and are followed by the program (as the kernel does); time, other processes and ignored files (/dev, /proc, /sys, the cache of ccache) are not among the answers; what becomes of the report in the database is C23 and C24 |
| C106 | `tup.glob` (`LuaGlob`, on top of `Lookup` and `Pel`) | as for C79 (the SQLite GLOB operator is a parameter); the argument after `new_pl` and `path_list_fill_dt_pel`; the Tupfiles that the pattern depends on have been parsed |
| C107 | `process_output`, `display_output`, `show_result`, and the threads of an update that take `display_mutex` to print (`Show`) | the progress bar and the colours; errors of tmpfile, read, close; messages that are printed without the lock when a system call fails, and the output of `^s` commands, which goes to the terminal directly |
| C108 | The two loops of `execute_graph`, `worker_wait`, `worker_ret`, `run_thread` and the lists of workers, with one step for what is done under a mutex and one step for each access without (`Workers`) | what is in the graph (the executor, C08 ff., has it) and what the functions do; memory order: an access is seen at once by all threads; a function that never returns; failures of the pthread calls |
| C109 | `monitor_set_pid`, `monitor_get_pid` (one step for each system call), `stop_monitor`, and the choice in `run_scan` (`PidFile`) | system calls that fail, a process that is killed in the middle of a call, a signal handler that calls `monitor_set_pid` during such a call, an id that is used again by another process |
| C110 | `rm_entry`, `tup_entry_clear`, `tup_entry_add_ref`/`del_ref`, `new_entry` with `resolve_parent`, tent_tree.c, tent_list.c (`Refs`) | threads, lack of memory, the pointers that are not counted (`incoming`, `variant`), the `count` of a set, `tent_tree_copy` (a sequence of `tent_tree_add`), ids that differ by 2^31 or more, a name that its directory has already, an entry that is moved to another directory |
| C111 | `setup_subprocess` on Linux, with the kernel's mounts, roots and working directories as a walk along a path (`Setup`) | symbolic links, `.` and `..` in paths, a project at /, the owners and modes of the output files, `tup_drop_privs`, other users of the mounts, the length of `srcmount` |
| C112 | `timespan_milliseconds`, `timespan_add_delta`, the spans of nested calls of `parse` (`Timespan`) | `timespan_seconds` (floating point), the bounds of `time_t`, Tupfiles that are parsed with an error |
| C113 | `server_pre_init` on Linux (`PreInit`): each system call succeeds or not | what the calls do in the kernel, the messages, EINTR, `server_post_exit`, other systems |
| C114 | the names of files in .tup/tmp and the buffers they are made in (`TmpNames`) | that the numbers of one kind differ (a counter, the id of a node or of a session), printf itself, the graphs of `save_graph` |
| C43 | process_create_nodes, process_config_nodes, updater, tup_db_begin/commit/rollback (`Transact`) | traces of all moments at which the process can end |
| C44 | lock.c, monitor_supported, the locking in main.c, flock/fcntl.c (`Locks`) | any number of processes; exclusion, absence of deadlock, bound on the steps |
| C45 | queue_event, ephemeral_event, check_from_events, handle_event, flush_queue (`Monitor`) | tokens for events that are waiting; invariant over all interleavings |
| C46 | option.c, ini.c, the flags of main.c (`Options`) | grammar of the files, precedence |
| C51, C57 | execute_rule, do_rule calls, !-macros (`Execute`) | exact list of commands made; exact macros |
| C52, C59 | move_outputs, restore_outputs, check_outputs, compare_files (`Restore`) | state of the tree and the backups at the end |

Not modelled: the Lua parser (luaparser.c) except for the store of variables (C09, C86) and rules (C85), the progress display, the
LD_PRELOAD server except for its file of accesses, the Windows server, the FUSE 2 build except for what C84 says of open, namespaces and mounts in master_fork.c, variants (build directories with a tup.config) except
for the list of those in use (C68), the directories in them (C73) and where a comment says so, the commands that only print (graph, varshow, ...), the dircache,
the upgrades of the database to versions 2 and 3 (C76).

## Claims that were narrowed

Two properties as first written are false of the code. They are stated now as what exactly holds; the theorems whose names
end in `_partial` are the parts of the first versions that hold.

* C12, first version: inside exactly if the components of the root are a prefix. The code compares the path with the root
  of the project without regard to the boundaries of components, so that with a project in /ab the path /a/b/f is taken to
  be inside (`c12_false`).  `c12_exact` states what is recognised.
* C53, first version: every name survives double quotes. False for names with `$`, backquote or certain backslashes
  (`c53_false`); `c53_exact` states which names survive.

## What was found in the code

Each with a theorem that shows it on a concrete input, where one is named.

Parser:
* A continued line or a comment at the edge of the file makes the scanner read outside of its buffer (C03).
* A path of PATH_MAX bytes overflows a buffer (`c04_long_word_leaves_the_buffer`).
* A value of a variable that contains `%<id>t` is expanded again (`c05_false_with_nodes`).
* `foreach` is recognised without a delimiter (`c08_foreach_not_delimited`); a quoted input that contains `|` is split.
* A line that begins with `=` reads the byte before the line; an operator inside of a value is taken for the operator (C09).
* `ifeq` accepts a `)` before the comma (C54).
* `%4294967297f` counts as `%1f`; `%99f` is an error (C06).
* For paths from a bin or outside of the tree, the search for the extension goes beyond the last slash, which gives
  negative lengths for `../foo` (C55).  A pattern ending in `*` gives no `%g`; more than 10 stars overflow the array (C56).
* `!m = |> cmd |> <g` frees a pointer into the middle of an allocation (`c57_undefined`).
* Reserved names are compared with the whole path: `sub/Tupfile` can be an output, and tup.config in a variant
  (`c50_reserved_elsewhere`, `c50_reserved_variant`).
* print_json overflows its buffer by one byte for some lengths and leaves control characters as they are (C20).
* A separator after an incomplete line that ends in `#` is missed (`c21_false`); an incomplete last line is merged with
  it (`c21_last_line`); a backslash in a name is not escaped (`c58_backslash`).

Configuration and options:
* tup.config without a newline at the end is read beyond the buffer (`c15_unterminated`).
* Names with `=` or bytes above 127 are stored but not found (`c17_false_for_equals`, `c17_false_for_bytes`).
  A variable file whose index overflows is accepted (`c17_overflow`), and offsets are compared with the length of the
  whole file, so that a damaged file is read beyond its end (`c17_damaged`).
* Option files: lines of 200 bytes and more are split (`c46_false_for_long_lines`), `-jXYZ` is accepted
  (`c46_false_for_jobs`), numbers overflow (`c46_false_for_numbers`), options are honoured after `--`
  (`c46_false_for_dashes`).

Graph and update:
* Not every cycle is found while the graph is built (`c29_build_misses_cycle`); the executor finds the rest.
* With `^o`, outputs left by an interrupted update can make a later one skip necessary work (`c35_false_with_leftovers`).
* Ids that differ by a multiple of 2^32 are confused, and the order is not one for ids more than 2^31 apart (C47).
* Adding a declared input does not run the command again (`c25_added_input`), nor does losing an output to another rule
  (`c25_stolen`).
* A file with the name of a group makes the scan fail (`c41_group_name`); a directory with that name makes it recurse
  without end (`c41_group_dir`).
* A file that is replaced by a named pipe, socket or device is not noticed by a scan (`c60_replaced`).
* A group that has only a sticky link to a command is not examined when the command is deleted, and stays (C40).
* A dependency on a file that becomes an output of the command itself can stay recorded (C24).
* Two transient commands that fill the same group, both missing, make the update fail with an internal error
  (`c61_shared_group`); so does a transient command with one output left from a failed update and another missing
  (`c61_leftover_output`).
* Temporary files left from a failed update cut the graph: commands that depend on a changed file through one of them
  and had succeeded before are not run again (`c61_leftover`).
* In a variant the path put in for `%<group>.res` has the steps up from the variant's directory, but the command runs in
  the source directory, so that the path leads elsewhere (`c62_variant`).  `%<o>` also stands for a group named `<o>s>`
  (`c62_longer_name`).
* When a thread has used up 4 GB for objects of one type, `next_alloc_size` has overflowed to 0; then an object outside of
  any block is handed out (`c63_four_gigabytes`).
* With the preloaded library, a rename from `/dev/shm` (or another ignored place) into the project is not reported at all
  (`c64_moved_from_dev`); a process that is killed while it records an access can make the reader lose the accesses that
  follow without an error (`c64_killed`).
* A command that ends before its process id is entered in the tree, while another command runs, makes the thread that waits for
  the children stop; then all calls hang for ever (`c65_race`).  So does a process id that is used again before its entry is
  removed.  Nothing else can stop it (`c65_only_race`).
* `export A=x` exports A if its value begins with `x=` (`c66_export_equals`).
* A generated file that the user has changed is kept when its rule is removed, but deleted when the whole directory of its rule is
  removed: that path (updater.c:1411-1424) puts the files into the tree of those to be deleted without a look at the list of changed
  files (`c67_removed_changed`).
* Files are unlinked before the check for cycles of groups, and one by one: if the check fails or a later file cannot be unlinked the
  database is rolled back, but the files are gone (`c67_rollback`).  The next update makes them again or deletes them again.
* A ghost that becomes an output is put into the list of changed files (`tup_db_create_node_part`), and the list tells "the user has
  changed it" from "tup has made it".  If the command never succeeds and the rule is removed, the node becomes an ordinary file,
  though tup may have made it, or nobody has.
* A rule whose output is `.gitignore` in a directory without that directive is accepted, but at the end of the parsing
  `remove_tup_gitignore` fails if there is no such file, or turns the node into an ordinary file (parser.c:297-323; read, not modelled).
* A variant that is not directly in the top directory stays in the saved list when its tup.config is removed: that path ("discard variant",
  updater.c:982-1000) does not take it out.  The next update has it among the variants, with no file (`c68_nested`); if the last other
  variant is removed the project is then not built in place either (`c68_phantom`).
* The directory of the only variant is removed, this is seen by `tup scan`, and the directory is made again without a tup.config.  The scan drops
  the variant from the list in memory, so that the update takes the file for one that never was a variant: the project is to be built in
  place, but the Tupfiles are not parsed again, and the old row stays in the list.  With a new tup.config in that directory both the variant
  and the project in place are built (`c68_again`).
* The branch for a variant that is in the list but not enabled (updater.c:1048-1062) is never taken (part of the proof of `c68_succeeds`); it would fail, as
  `variant_enable` inserts what is already in the tree.  `check_empty_variant` tests `!fd` instead of `fd < 0` (updater.c:803; read, not modelled).
* Whether an included file is Lua is decided by the first `.lua` in the path, so `include x.lua.d/y.lua` is parsed as a
  Tupfile (`c69_lua`, `c69_lua_directory`).
* A file that includes itself is not recognised; it ends when there are no descriptors left (`c69_loop`).
* At the top of the project, without a Tupfile, `Tuprules.tup` is looked at but is not recorded if it does not exist
  (`c69_top`); this does no harm because a new file at the top schedules that directory anyway.
* parser_include_rules leaves `including_rules` set on two of its error paths, and parser_include_file returns without
  restoring the directory on its errors for variants; both are followed by the end of the parsing.
* After a command has ended, a `rename` of one of its left-over processes is answered with success though nothing is done (`c70_late_rename`); the number of a job is read with `strtol` in base 0, so that
  `@tupjob-12x` and `@tupjob-014` are also directories of job 12 (`c70_alias`); a file that another command leaves in the tree is visible at once to a running one (`c70_still_needed`).
* The time of a file is stored with 64 bits, but read with 32 bits by two of the four functions that read it, so after January 2038 tup
  sees another time after a restart than before (`c71_year_2038`).
* `tup_db_rollback` does not drop the entries in memory; a process that went on after it would see nodes that are not in the database
  (`c71_rollback`).  All callers end the program.
* `link_insert` adds to the copy of the inputs of a command even if that copy is outdated, and fails if the id is already there, though the
  link is not in the table (`c71_old_copy`).  It needs a deleted node whose id is given out again; whether a run of tup gets there has not
  been examined.
* `tup generate --builddir` with a rule whose output is in a subdirectory that tup makes: `generate_script_mkdir` (updater.c:235) uses `print_tup_entry`, which is made for messages, so the script
  has `mkdir -p "[build] out"` instead of `mkdir -p "build/out"`, and the commands fail (`c72_build_directory_wrong`).
* The script of `tup generate` does not escape anything: directories with `$`, backquotes or quotes in their names, directories whose names begin with a dash (`cd "-"`), a build directory with a space
  in its name (not quoted at all), commands that end with a comment (`(cmd # ...)`), and a newline in an argument of `tup generate` give a script that does something else
  (`c72_directory_names`, `c72_build_name`, `c72_command_texts`, `c72_argument`).
* A directory of the sources that is removed and made again between two updates loses its build directory for good: the old
  one is marked for removal before the new source takes it over (`c73_made_again`). A directory that the monitor saw moving
  to another parent, with the same last name, is built at the old place too (`c73_moved`). A ghost that becomes an empty
  directory is put into the wrong list, and nothing is made for it (`c73_ghost`). A build directory that is not right
  below the top makes tup delete directories with the same last name in the other build directories, since
  `delete_variant_dirs` looks up the last name only (`c73_nested`).
* Near that code: `check_empty_variant` tests `!fd` instead of `fd < 0`; `recurse_delete_variant` leaves the `srcid` of the
  directory it keeps.
* A circle of Tupfiles is reported only if one of the Tupfiles in it comes up by itself: `parse_dependent_tupfiles` skips
  a directory whose `already_used` is set before `parse` can see that it is being parsed. If a third directory looks into
  the circle first, the update succeeds with commands that depend on the order (`c74_circle_missed`). The links it leaves
  have a circle, `make_edge` refuses the graph of every later update that reaches it, and correcting the Tupfile does not
  help, as the old links are used to build the graph (`c74_circle_stays`). t6020 has only the direct circle.
* `tup refactor` has no message for a new display string: `do_rule` writes it to the database, which is not one of the
  expected changes, so that the update ends with "Tup should have caught this change before here" (`c75_display`).
* The upgrade to version 14 renames id 2 in `create_list` and `modify_list`, where ids are unique: with tup.config in the same list the statement fails, and with it every later attempt to open the database (C76, `c76_stuck`).  The upgrade to version 15 deletes the nodes of groups and their sticky links but not normal links of theirs.
* With full dependency tracking, a file that was read through a symbolic link to a directory outside of the project is not looked at any more when the link leads nowhere but has not changed itself; its commands are not scheduled (C77, `c77_stale`).  The same happens below a path that was recorded as missing, was made and filled during an update, and is gone again at the next scan.  A directory on the way to an outside file that can be searched but not read makes `tup_entry_open` fail, and with it the command (C77, `c77_add_works`).
* Text behind the closing brace of a bin in the inputs is ignored: `{objs}.txt` is `{objs}` (C78, `c78_odd`).  A rule with `foreach` that fills a bin and has it among its order-only inputs makes each command wait for the outputs of the ones before it, so they cannot run at the same time (`c78_own`).
* In a variant a generated file of the source tree that is scheduled to be deleted is accepted as a named input, because it is looked up a second time in the same place and taken for a new file (C79, `c79_gone_variant`). A `!tup_preserve` rule in a variant can name a file outside of the project only the first time: its node is not looked up where it is and cannot be made twice (`c79_preserve_outside`).
* After a command has tried (and failed) to open a file for writing that it has not made, the directory of that file cannot be listed any more (C80, `c80_fails`). A file that was replaced by renaming is listed twice (`c80_twice`). A directory that the command has made and given the name of another directory hides what is in the other one from lists but not from lookups (`c80_hides`).
* What a `run` script sees of a preloaded directory is outdated if a rule between the `preload` and the script puts a file there (C81,
  `c81_stale`); its own directory is always listed anew. A directory beside the project whose name begins like that of the project (`/p2` for
  `/p`) is refused as if it was a part of it that was not preloaded (`c81_sibling`). `preload` with an exclusion uses a NULL pointer
  (`c81_exclusion`). A preloaded directory with `<` and `>` in its name is taken for a group: its Tupfile is not parsed before and the
  Tupfile does not depend on it (`c81_group_like`). What a script prints after a byte 0 is ignored without a message. Lists of
  directories outside of the project are not recorded as a dependency at all.
* `tup todo` walks the links from all modified nodes, also from transient commands, which the scan puts into the modify list because their
  outputs were deleted. In a project with a transient command it lists this command and all behind it after every update, though an
  update would do nothing, and never says that everything is up to date (C82, `c82_transient`). `tup todo` with a file name calls
  `prune_graph` as an update does, and commits: the commands that it leaves out are put into the modify list, so that the next update
  runs them even if their inputs turn out to be the same as before (`c82_marks`).
* A file of the user in a generated directory makes the directory the user's (`make_dirs_normal`), but only if no node with its name was
  there. If a command or a Tupfile had looked for the file before, `ghost_to_file` is called instead and the directory stays generated: it
  is left out by scripts and lists, is ignored by git, and the user's file in it cannot be an input (C83, `c83_ghost_stays`). A directory
  that the user makes inside a generated one has the same effect, also for all files that are put into it (`c83_new_dir_stays`).
* A directory without files whose rules come from a Tupdefault above, and into which another Tupfile writes, becomes generated. Its
  links are dropped, among them the one from the Tupdefault, while its commands stay: a change of the Tupdefault does not reach it any more
  (C83, `c83_default_lost`).
* Outputs that are about to be deleted count when it is decided whether a directory is there only for outputs. A user's directory from
  which the last file and the last output vanish in the same update is removed from the disk, while it stays if the output went
  in an earlier update (C83, `c83_emptied`).
* Anything that tup does not record (an ignored name, a socket) in a generated directory that is to go makes the commit fail, in every update,
  until it is removed by hand (C83, `c83_unknown_fails`).
* The loop that turns directories into generated ones goes up to the parent without asking whether there is one. Only the virtual
  directory `$` in the top directory keeps it from following a null pointer (C83, `c83_top_safe`, `c83_top_crash`).
* A file that is opened when the command has as many open files as half the limit of the process gets no descriptor; each access opens it anew
  by its name. If it is removed or replaced meanwhile, it can no longer be read (C84, `c84_late_removed`, `c84_late_replaced`); if it was made
  without permission to write, or they were taken, it cannot be written (`c84_late_readonly`); and an excluded file cannot be written at all,
  because `tup_fs_write` demands a mapping (`c84_late_excluded`). The limit is compared with the count of one command, while the
  descriptors of all commands count for the process.
* Built with libfuse 2, tup lets a command write into any file of the tree that it opens for writing without creating it (C84,
  `c84_fuse2_writes`). With libfuse 3 such an open fails with ENOENT, and the name is not seen any more by the command (`c84_open_hides`).
* A command can remove any file of the tree that has `.fuse_hidden` in its path, and a file that it renames to such a name is lost
  without an error (C84, `c84_hidden_name`).
* `tup_fs_open` matches exclusions against the path with the directory of the job in front, all other functions against the path without it.
  A file that matches `^/tmp/` can be truncated, but not opened for writing (C84, `c84_exclusion_differs`).
* `tup.frule` removes `extra_inputs`, `extra_outputs` and `bin` from the tables it is given. A Tupfile.lua that uses the same table in two
  rules has no extra inputs in the second (C85, `c85_again`), so the second command does not wait for them.
* `tup.rule(tup.glob('*.c'), ...)` runs the command without inputs if nothing matches, while the rule `: *.c |> ...` makes no command
  (C85, `c85_differences`). A rule in a Tupfile may take the bin that it is the first to fill (it is empty); in a Tupfile.lua this is an error.
* `tup.import` sets the real global variable besides that of the Tupfile. Every Tupfile.lua that is parsed later in the same update reads the
  environment variable without importing it, and gets no dependency on it; on its own it reads nil (C86, `c86_leaks`). The importing Tupfile
  has a table of words, the others have the text.
* `+=` changes a table in place: after `y = x` and `y += 'b'` the list `x` has `b` too (C86, `c86_append_aliases`); in a Tupfile it would not.
* `tup.base` and `tup.ext` do not know an extension such as `c++`, take all of `.profile` for an extension, and take a backslash for a
  directory, other than `%B` and `%e` (C87, `c87_differences`).
* `tup init /absolute/path` always fails: `mkdirtree` first makes the directory with an empty path (C88, `c88_init_absolute`).
  `tup init dir` looks for a project above the current directory, not above `dir`, and so makes nested projects without a warning
  (C88, `c88_init_nested`). A project in `/` is found only from `/` itself (C88, `c88_root`).
* `tup compiledb` with several variants: `first_time` in `print_compile_db` is static and never reset, so that every file with objects
  but the first begins with a comma and is not JSON (C89, `c89_later`). The path of the file is written without escapes, unlike the
  directory and command; a quote in it makes the file unreadable, or adds a field (C89, `c89_unescaped`).
* `!tup_ln` and `!tup_preserve` take their command apart at white space: an input `my file.c` gives a link to `my`, at `file.c out`
  (C90, `c90_spaces`). An absolute input (a file outside of the project) gives a dangling link, as the path back to the source directory
  is put in front of it (C90, `c90_absolute`). A rule whose command is written out, as in `: |> ^ x^ !tup_ln a |>`, reads behind the end
  of the command, and without outputs a null pointer (C90, `c90_undefined`).
* While a Tupfile is parsed, a run script may not write files, but this is noticed only for files that have no node and that were
  not looked for before they were written (C91, `c91_write`, `c91_looked`); FUSE looks a name up before it creates the file.
  Reading a generated file is an error only if the dependency is new: a file that was read as a normal file (or looked for in vain)
  and is generated since then is read without complaint (C91, `c91_error`). A file whose time is 0 seconds (1970) passes for a
  directory outside of the project and is never an input, of a directory or of a command.
* Of a link to a link only the first target is recorded (C92, `c92_chain`): if a Tupfile includes `a`, a link to the link `b` to `c`,
  a change of `c` does not parse the directory again. And since the recorded path is simplified by its text, a link `../f` in a
  directory that is reached through another link names a wrong file (C92, `c92_dotdot`).
* `tup graph --combine` multiplies a signed 64-bit number by 31 for each character of the first word of a command; from the 13th
  on this always overflows, which is undefined behaviour (C93, `c93_overflow`); `x86_64-linux-gnu-gcc` is such a word. Nodes are
  merged when their hashes are equal, with no look at what they are, and commands and files share one table of hashes. The root
  node takes part in the merging of files although it is never printed, so that a file merged into it would not be printed.
* `percent_complete` multiplies a time in milliseconds by 100 as `int`: when jobs that took more than 21474836 ms (just under six hours,
  on all cores together) are done, drawing the progress bar is undefined behaviour (C94, `c94_long`); the wrapped number is
  negative and goes to `memset` as a size. The time of a command is a difference of two readings of the wall clock; if it was set
  back in between, the time is negative, a later percentage is greater than 100, and the bar is written beyond its
  buffer on the stack (C94, `c94_clock`). When the time of one job is not known and another is skipped, -1 is no longer
  recognised, and the bar says `ETA=<1s` from then on (C94, `c94_eta`).
* `save_graph` uses the path of the graph as a format for `snprintf`, with the process id and a count, and `log_graph` puts the path
  of the project in it: in a project whose path has `%i` the graph is saved in (or fails for want of) another directory, with
  `%s` or `%n` the behaviour is undefined (C95, `c95_percent`). If `rotate` fails for one kind of file, the kinds before it are
  moved already, so that equal numbers no longer mean the same update (C95, `c95_stuck`), and the directory stays open.
* `tup variant /abs/x.config` makes a link `..//abs/x.config`, which is looked up in the project (C96, `c96_absolute`); it
  says `Added variant` all the same. If build-x is a symbolic link to a directory that is empty (files with a leading dot
  do not count), the link is made there, and `..` in it leads elsewhere (C96, `c96_elsewhere`). If one of several files is refused,
  the variants before it stay. If the text of the link is too long the empty directory stays.
* A command without ^o writes its output and fails (the new modification time is recorded); then the user adds ^o to the rule and
  the command succeeds, writing the same again. The comparison with the file left by the failed run says that nothing has
  changed, so the commands using the file are not run, though they have seen the version before only (C97,
  `c97_false_o_added`).
* The monitor has one variable for the pid of the update that its thread is to wait for. If three updates are started before the
  first has ended, the second is overwritten and never waited for (C98, `c98_zombie`); with a slow thread two are enough.
* An autoupdate whose execvp fails (tup is not in the PATH), or that returns before the pid is cleared, leaves its pid in the
  database. tup flush then tries again every 10 ms without end, and further flushes of the monitor when a lock is opened start
  no update, until a file is changed and the monitor's timeout starts a new one (C98, `c98_stuck`).
* A monitor that leaves its loop has the object lock, and joins its thread before it gives the lock back; the thread may wait
  for an autoupdate that waits for that lock (read from src/tup/monitor/inotify.c:346-420, 957; not modelled).
* A node variable in a command of a file that was included from another directory is expanded relative to that directory,
  though the command runs in the directory of the Tupfile (C99, `c99_false_included`); inputs are affected in the same way.
* tup.nodevariable as a string is relative to the directory of the variant, while `&(var)` is relative to the source directory,
  where commands run (C99, `c99_false_lua_node`). Unlike `&(var)` it adds no dependency on the node.
* `%d` at the top of a variant is the name of the variant directory, in all other directories it is the name that the source
  directory has too (C99, `c99_false_d`). tup.getdirectory tests the Tupfile's directory but uses the name of the included
  file's (C99, `c99_false_lua_directory`).
* `tup graph` without arguments begins with the flagged nodes, but the callback sees the root as the current node and so skips
  directories unless there is --dirs. Directories that are to be parsed do not show up, nor does what is in them, though the
  comment in src/tup/tup/main.c:519-522 says directories are loaded in that case (C100, `c100_false_default`).
* A file of the project whose path contains "@tup@" cannot be read by any command: stat says that it is a directory, or fails
  with EPERM, whatever is there, and nothing is noted (C101, `c101_shadow`).
* A variable that is asked for by a program in a directory outside of the project is not noted, though its value is handed out;
  the same for a name of 4090 bytes or more. Of a name with a slash only the part before it is noted (C101, `c101_outside`,
  `c101_long`, `c101_slash`).
* tup_fs_getattr returns 1 and leaves the list locked if the file cannot be noted (src/tup/server/fuse_fs.c:411-416; memory only).
* `ifdef TUP_PLATFORM` and `ifdef TUP_ARCH` are false though the variables have values, unless tup.config sets them (C102,
  `c102_ifdef_platform`). A variable that is set to nothing and one that is not set look the same but for ifdef.
* `@()`, `$(CONFIG_)` and `ifdef CONFIG_` make a ghost with an empty name below tup.config (C102, by reading).
* A rule to which only an input is added does not schedule its command, while one with one output more does (C103, the examples).
* queue_event (inotify.c:760) sets the number of an entry to -1 while the entry is in the tree that is sorted by these numbers. Until the entry is removed, other directories may not be found: monitor_rmdir_cb then leaves their watches, and events in a directory that was moved out of the project are still handled as events in the node that was removed (`c104_stale`).
* dircache_add (dircache.c:49-50) ignores that an insertion fails. If a directory gets a second watch the new entry is not in the tree by directories, and dircache_del removes it from there nevertheless, by pointers that malloc left unset (`c104_twice`).
* A name that a command removes or renames is dropped from the names that it has read, even if it was read before the command made anything there (handle_unlink, file.c:623-643; handle_rename, 586-597). So the dependency of a command on the absence of its temporary files is lost, and in the extreme that on the content of a file (`c105_dropped`).
* `tup.glob` adds a slash between the directory and the name, but the directory has one already (luaparser.c:461-466, parser.c:2537): the result for `sub/*.c` is `sub//x.c` (`c106_path` says that it makes no difference for rules).
* `tup.glob` has no test for files of other Tupfiles, while a pattern in a rule skips them: the list can have files that a rule then refuses (`c106_foreign`). A name with a bracket in the list is taken for a pattern when it is given to a rule (`c106_brackets`).
* `tup.glob("^x")` dereferences `pl->pel`, which is NULL for an exclusion (luaparser.c:531; `c106_exclusion`).
* `display_output` prints with `%.*s` (config.c:192): after a byte 0 in what a command printed the rest of the 1024 bytes that were read is lost (`c107_zero`).
* If `restore_outputs`, `unskip_outputs` or `check_outputs` fails, `process_output` returns before it shows anything (updater.c:2650-2662): what a failing command printed, and that it failed, is not shown (`c107_lost`).
* `server_is_dead` is asked at the end of the inner loop and again at the top of the outer one (updater.c:1980 and 1932). If the signal comes in between, `execute_graph` ends while workers are active: a worker that has not started on its node leaves it undone, and the result of one that has is not looked at, so a job that fails then is not counted (`c108_dropped`).
* `monitor_set_pid` opens with O_TRUNC before it takes the lock (inotify.c:360-364), so it empties the file under the hands of one that has the lock. If that one has written and not yet called ftruncate, the file is filled with zeros, which are read as 0: `stop_monitor` then calls kill(0, SIGHUP), which goes to its own process group, and `run_scan` believes that a monitor is running (`c109_zero`).
* `monitor` does not wait for the old monitor that it has told to end: if the old one writes its -1 later, the file says that there is no monitor (`c109_overtaken`).
* `monitor_get_pid` reports success with -1 if the file cannot be read (inotify.c:410-412).
* `rm_entry` takes an entry out of the index and empties its sets before it looks at the reference count; after the error the entry is in memory and in the sets that point to it, but no longer found by its id (entry.c:147-161, `c110_remove`). `new_entry` leaves an entry without a parent in the index if its directory is not there (entry.c:549-566, `c110_create`).
* `free_tent_tree` and `tent_tree_rm` do not change `root->count`; only `tent_tree_remove` does (tent_tree.c:106-132). A set that is emptied and used again would have a count that is too high. `tent_tree_cmp` returns a difference of two 64-bit ids as an int (tent_tree.c:27-30): ids that differ by a multiple of 2^32 are taken for the same.
* `rm_variant_dir_cb` reads `n->counted` after `remove_node` has put the node back into the pool (updater.c:1238-1239); the pool does not touch the memory, so it is the old value.
* After an error in `process_depfile` the depfile is not unlinked.
* `setup_subprocess` does not return after `chdir(job)` has failed (master_fork.c:524-528); it goes on with `chdir(dir)`, relative to the project. If the project has a directory with its own path below it, the command is run there, unseen (`c111_unseen`); else this `chdir` fails.
* If standard output is closed when the file for the output is made, the file gets the number 1, and `close(ofd)` closes it (master_fork.c:385 and 414-427, `c111_closed`).
* On Linux `privileged` of master_fork.c is never set (it is set in the `#else` at 212-215 only), so ^c and full_deps without namespaces are refused even if tup is privileged, unlike what the message says.
* `timespan_milliseconds` says that it rounds to the nearest millisecond, but the division rounds towards zero, so it is up to 1.5 ms too much when the difference of the microseconds is negative (timespan.c:34-39, `c112_not_nearest`).
* `parse` returns 0 for a virtual directory without setting `*retts` (parser.c:169-170); a caller would then read a span that was never written (parser.c:2612-2629). No rule has such a directory among its inputs, as far as we see.
* When the ids cannot be mapped, or full dependencies are asked for without namespaces, the forked process returns -1 from `server_pre_init` instead of exiting; both processes then go on with the error path of `main` (master_fork.c:206-219, `c113_both`, `c113_again`, `c113_without`).
* On Linux `privileged` in master_fork.c is never set (only line 214, for other systems), so root with TUP_NO_NAMESPACING cannot track full dependencies although it could use chroot (`c113_without`).
* `deny_setgroups` and `update_map` leave the file open when the write fails (master_fork.c:107-111 and 133-137).
* Seen while reading, without a theorem: `tup_fs_getattr` returns with the information about the job locked when a variable could not be noted (fuse_fs.c:412-417), so the job hangs. `mknod_internal` returns `-errno` after `tup_fs_access` has failed (fuse_fs.c:748-752); the result is in `rc`, and `errno` may have another value by then. If an update started by the monitor is killed, the number of its process stays in the database (main.c:360-366, inotify.c:618-623), and nothing resets it when the monitor is started.
* The name of the file with the dependencies of a command is cut off without a message if the path of the project is too long; from 4080 bytes on all commands have the same file (depfile.c:280-281, `c114_long`).
* `tup_fs_symlink` and `mknod_internal` add the file to the command's files before it is made; if that fails it stays there (fuse_fs.c:945-951 and 756-765). For a FIFO and a socket the file is made relative to the current directory, while all others are relative to the top (fuse_fs.c:778 and 787).
* The results of begin and commit are ignored (`c43_commit_ignored`, `c43_success_unrecorded`); files deleted before a
  later failure stay deleted.

Processes:
* Four deadlocks of the locks (the `c44_false` theorems): a second monitor started while the first is being stopped, two
  monitors, a process killed between two locks, a monitor stopped before its parent has seen it start.
* The server's view of renamed directories, failed renames, failed truncates and opens, and replaced directories differs
  from what is reported (the `c22_` counterexamples).
* The monitor forgets removals: `mv a b; rm b`, `mv x y; mv y z`, `mv new y; rm y` before it has flushed its queue
  (`c45_moved_then_removed`, `c45_moved_twice`, `c45_replaced_then_removed`).  An entry of its list of moves can point to
  a freed event (`c45_freed`).
* If a command with `^o` cannot be started, its previous outputs stay in .tup/tmp and are removed by the next start of
  tup (the last theorems of C52).

## Tests against wrong programs

Each line of seeded/LOG.jsonl is an edit of a definition as a realistic bug would make it, in a copy of the project, and the
theorems that fail then.  Survivors led to these changes:

* C01 `c01_any_file` (was only about files whose conditionals are balanced), C04 `c04_kinds` and `c04_accepts_only_kinds`,
  C03 restated for files with a byte-order mark;
* C50: the model of the creation of an output now deletes a node of another type first, as the code does, so that
  `c50_existing` depends on the check of `validate_output`;
* C12 `c12_count`.
