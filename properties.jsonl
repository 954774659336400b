{"id": "C01", "title": "Conditional blocks nest like a stack", "statement": "In a Tupfile, a line inside any nesting of ifeq/ifneq/ifdef/ifndef ... else ... endif takes effect exactly when every enclosing branch is the selected one. An else or endif with no open conditional is an error, a ninth level of nesting is an error, and a Tupfile that ends with an open conditional is an error.", "quantifier": "every sequence of if/else/endif directives with any truth values, of any length and nesting depth", "why_tests_cant": "The implementation packs the stack into two 8-bit words; the number of directive sequences is infinite and a wrong shift or mask shows up only for particular nesting shapes.", "anchors": ["src/tup/if_stmt.c: if_add, if_else, if_endif, if_true, if_check", "src/tup/parser.c: parse_tupfile"]}
{"id": "C02", "title": "Unselected branches have no effect", "statement": "Lines inside an unselected conditional branch change nothing: no rule, variable, include or error directive there is carried out, and the conditions of conditionals nested inside it are never evaluated.", "quantifier": "every Tupfile (list of logical lines), every meaning of the individual directives", "why_tests_cant": "It is a statement about every directive kind at every nesting position, independent of what the directive would do.", "anchors": ["src/tup/parser.c: parse_tupfile 554-703", "src/tup/if_stmt.c"]}
{"id": "C03", "title": "Line joining and comments", "statement": "Reading a Tupfile yields its logical lines: physical lines joined at backslash-newline (or backslash-CR-newline) with one space in place of each of these bytes, leading and trailing white space removed (a line that begins with a continuation keeps the spaces the continuation leaves), blank lines and comment lines dropped, a leading byte-order mark ignored; nothing else is added, dropped or reordered. The reader leaves its buffer exactly when the file ends in the middle of a continuation or its first line is a single character; in all other cases it yields the logical lines.", "quantifier": "every file content without NUL bytes", "why_tests_cant": "All byte strings; the scanner edits the buffer in place while it walks it.", "anchors": ["src/tup/parser.c: parse_tupfile, get_newline", "src/tup/fslurp.c: fslurp_null"]}
{"id": "C04", "title": "Path lists: quoting round-trips", "statement": "Any list of path strings shorter than PATH_MAX (not looking like a bin, exclusion or group), written with each path in double quotes with backslashes before quotes and backslashes and separated by white space, is read back as exactly that list in that order; more generally any text made of plain, escaped and quoted words is read as exactly those words and nothing else is accepted; a path list with an unterminated quote is rejected. (A word of PATH_MAX bytes or more is written behind the end of the word buffer.)", "quantifier": "every list of paths, every separator choice, every input string", "why_tests_cant": "Unbounded strings over all bytes with two interacting escape mechanisms.", "anchors": ["src/tup/parser.c: next_path 2365-2397, get_path_list 2399-2425"]}
{"id": "C05", "title": "$-expansion is a single-pass substitution", "statement": "Expanding a string replaces each $(name) by the current value of the variable, each @(name) by the config value and each &(name) by the node variable, leaves escaped \\$( and \\@( as literal $( and @(, never re-expands substituted text, copies every other byte unchanged, records exactly the config variables referred to, and fails exactly if a reference is not closed or cannot be looked up. Where internal node references are expanded as well, that is a second pass over the result, so there text from a variable that looks like %<id>t is replaced.", "quantifier": "every input string and every variable binding", "why_tests_cant": "Values may themselves contain reference syntax; sampling cannot cover all interactions.", "anchors": ["src/tup/parser.c: eval 4211-4351"]}
{"id": "C06", "title": "%-flag expansion", "statement": "Expanding a command or output template copies every byte that is not part of a %-flag and replaces each flag, read once from left to right, by what it stands for: list flags (%f %b %B %i %o, quoted and numbered forms) by the names of that list in order with single spaces between them, %e, %O, %d and %g by extension, output without extension, directory and first wildcard match, %% by a percent sign (or itself when a later pass follows). Unknown flags, a trailing % and flags for empty lists are rejected; the only templates whose expansion is undefined are those that reach %B or %O of a name without valid extension or %g of an input whose wildcard match was never recorded.", "quantifier": "every template string and all input/output lists", "why_tests_cant": "All templates times all lists.", "anchors": ["src/tup/parser.c: tup_printf 3844-4162"]}
{"id": "C07", "title": "Command prefix ^flags text^ is separated exactly", "statement": "A command string that starts with ^ is split at the next ^ into flags, display text and the shell command with no byte but separating white space lost; a command string that does not start with ^ is passed on whole apart from leading white space; a missing closing ^ is the only error.", "quantifier": "every command string", "why_tests_cant": "All strings; slicing by pointer arithmetic.", "anchors": ["src/tup/parser.c: split_command_string 3423-3473"]}
{"id": "C08", "title": "Rule lines split into inputs, command and outputs", "statement": "A rule ': I |> C |> O' is split at the first two |> separators, so for every I and C that do not contain |> the three parts are recovered up to surrounding white space; a rule without two separators is rejected.", "quantifier": "every rule line", "why_tests_cant": "All strings.", "anchors": ["src/tup/parser.c: split_input_pattern 1937-2024, parse_input_pattern, parse_output_pattern"]}
{"id": "C09", "title": "Variable assignment operators", "statement": "In a Tupfile 'NAME = V' and 'NAME := V' make NAME's value V and 'NAME += V' appends V after one space (or sets it, if NAME was not set), after both sides are expanded; no other variable changes, names beginning with CONFIG_ are rejected, and a line without an equals sign is a syntax error. A later reference $(NAME) gives that value, nothing if NAME was never set, and is an error if the name has 4095 bytes or more. White space behind a space in V is dropped. The operator is searched as += first, then :=, then =, in the whole line; so a value that contains a later operator is taken apart there instead.", "quantifier": "every name and every value text", "why_tests_cant": "Values may contain the operator characters themselves.", "anchors": ["src/tup/parser.c: set_variable 1736-1831", "src/tup/vardb.c: vardb_set2, vardb_append"]}
{"id": "C10", "title": "Input lists keep order and drop duplicates", "statement": "The input list of a rule is de-duplicated by keeping the first occurrence of each file and preserving order; exclusions remove exactly the matching inputs; the running length totals used to size expansions stay equal to the sums over the list (except the count of wildcard matches, which is not decreased by a removal).", "quantifier": "every input list and every sequence of list edits", "why_tests_cant": "All lists and edit histories.", "anchors": ["src/tup/parser.c: make_name_list_unique 2098-2122, add_name_list_entry, delete_name_list_entry, move_name_list_entry"]}
{"id": "C11", "title": "Path normalisation preserves meaning", "statement": "Splitting a path removes empty components, '.' and every 'x/..' pair, leaves '..' only at the front, resolves to the same directory as the original path in a tree without symlinks, and is idempotent. A path names a group iff its last component is enclosed in < and >.", "quantifier": "every path string and every starting directory", "why_tests_cant": "All strings of components.", "anchors": ["src/tup/pel_group.c: split_path_elements 77-129, append_path_elements, del_pel"]}
{"id": "C12", "title": "Absolute paths inside the project are recognised", "statement": "An absolute path is treated as inside the project, and rewritten relative to the project root, exactly when its components begin with pieces which, put together, spell the names of the root one after the other; the rest is the relative path. In particular every path whose first components are those of the root is recognised. (That only such paths are recognised is false of the code, which does not compare the boundaries of components: with a project in /ab the path /a/b/f is taken for f.)", "quantifier": "every root and every absolute path", "why_tests_cant": "All pairs of paths; the comparison works on a flat string without component boundaries.", "anchors": ["src/tup/pel_group.c: get_path_elements 131-190"]}
{"id": "C13", "title": "Hidden paths are never tracked", "statement": "A path is ignored by tup exactly when one of its components after normalisation is one of .tup .git .hg .bzr .svn .ccache (or is '.').", "quantifier": "every path", "why_tests_cant": "All strings; components are compared by length-delimited prefixes.", "anchors": ["src/tup/pel_group.c: pel_ignored 32-54, get_path_elements"]}
{"id": "C14", "title": "Relative paths lead where they should", "statement": "The relative path computed from one directory to another node, followed from the first directory, arrives at the second, and it is the shortest such path using parent steps followed by child steps.", "quantifier": "every directory tree and every pair of nodes", "why_tests_cant": "All trees.", "anchors": ["src/tup/entry.c: get_relative_dir_sep 724-795, get_full_path_tents"]}
{"id": "C15", "title": "tup.config parsing", "statement": "Reading a config file whose lines all end in a newline binds CONFIG_X=v and CONFIG_X=\"v\" to v (text after the closing quote is ignored, trailing blanks of an unquoted value are dropped) and '# CONFIG_X <any text>' to n, ignores other comments and blank lines, later bindings of a name override earlier ones, and any other line is an error. A non-empty last line without a newline makes the reader run past the end of its buffer.", "quantifier": "every file content", "why_tests_cant": "All byte strings; trimming is done by overwriting the buffer.", "anchors": ["src/tup/db.c: get_file_var_tree 7672-7745"]}
{"id": "C16", "title": "Config changes are detected exactly", "statement": "After a config file is read, the stored variables are exactly the file's bindings. Every Tupfile and every command that used a variable that was added, removed or changed is scheduled, nothing that was already scheduled is lost, and anything newly scheduled is a changed variable or one of its users. The variable file handed to commands is rewritten exactly when some variable changed.", "quantifier": "every pair of old database content and new file content", "why_tests_cant": "All pairs of maps; the code walks two ordered trees in step.", "anchors": ["src/tup/vardb.c: vardb_compare 187-236", "src/tup/db.c: tup_db_read_vars, compare_vars, add_var, remove_var 4951-5054"]}
{"id": "C17", "title": "Config lookups from running commands", "statement": "Looking a variable up in the binary variable file written by tup returns exactly the value written for that name, and reports 'absent' for every other name, provided the names written are ASCII and contain no '='. Both provisos are needed: without them a lookup can miss a stored name or answer with part of another one. A file that is too short for its index is rejected, so that no lookup reads an element of the index outside of the file, unless the number of entries is so large that the length of the index overflows; a damaged file of the right length can still make a lookup read behind its end.", "quantifier": "every finite map from such names to values, every name queried", "why_tests_cant": "All maps and keys; binary search over a packed byte format with char comparisons.", "anchors": ["src/tup/db.c: save_vardict_file 4882-4949", "src/tup/vardict.c: tup_config_var 109-164"]}
{"id": "C18", "title": "varsed substitution", "statement": "tup varsed copies its input, replacing each @NAME@ by the value of NAME (nothing when unset; y and n become 1 and 0 with --binary; @@ is the empty name and vanishes), drops a byte-order mark at the beginning, and leaves every other byte unchanged, including single @ signs.", "quantifier": "every input file and binding", "why_tests_cant": "All byte strings.", "anchors": ["src/tup/varsed.c: var_replace 76-136"]}
{"id": "C19", "title": "Single-quoted expansions survive the shell", "statement": "For every file name, the text that %'f adds to a command line for that name is read by a POSIX shell as exactly that one word.", "quantifier": "every file name", "why_tests_cant": "All byte strings through a quoting function and the shell's tokeniser.", "anchors": ["src/tup/estring.c: estring_append_escape 61-81", "src/tup/parser.c: tup_printf"]}
{"id": "C20", "title": "compile_commands.json strings", "statement": "A string written to compile_commands.json decodes, as a JSON string, to the original command or path exactly if it has no control characters; writing it stays inside the allocated buffer exactly if at least one byte needs no escape.", "quantifier": "every string", "why_tests_cant": "All byte strings including the all-escape worst case.", "anchors": ["src/tup/db.c: print_json 7472-7491"]}
{"id": "C21", "title": ".gitignore keeps user text", "statement": "Regenerating a .gitignore keeps the user's text above tup's separator line byte for byte, whatever is below the separator; regenerating it again changes nothing; and removing tup's part after any number of regenerations gives back exactly the user's text (the file is deleted if there is none). The user's text is any text without the separator whose last line is complete or has no '#'; for other texts without the separator the first regeneration loses nothing.", "quantifier": "every existing .gitignore content and every list of generated names, every number of regenerations", "why_tests_cant": "All file contents; the marker is found by a hand-written matcher.", "anchors": ["src/tup/updater.c: gitignore 1257-1382", "src/tup/parser.c: remove_tup_gitignore 1144-1240"]}
{"id": "C22", "title": "File accesses are recorded correctly", "statement": "A command that only changes, renames and removes files it has made itself (and gives a new name only to empty directories) sees its own file system on top of the tree: each operation succeeds or fails as it would there. At the end the files reported as written are exactly those that it made and that are still present under their final names, they get their final content in the tree, and temporary files that were deleted or renamed are reported neither as outputs nor as inputs. A file that is only looked at is reported as read exactly if it was looked at. Whatever the command does short of opening a file of the tree for writing, no file that would be moved into the tree goes unreported.", "quantifier": "every sequence of reads, writes, renames, deletions, directory creations and removals, every initial tree", "why_tests_cant": "All event sequences; renames and unlinks rewrite the lists retroactively.", "anchors": ["src/tup/server/fuse_fs.c: 165-241, 344-435, 725-1039, 1129-1317", "src/tup/file.c: handle_open_file, handle_rename, handle_unlink, check_unlink_list 197-230,573-643, 814-833"]}
{"id": "C23", "title": "Outputs are checked exactly", "statement": "A command is accepted only if the set of files it wrote equals its declared outputs (apart from matching exclusions); otherwise the update reports an error, and files belonging to other commands are scheduled to be regenerated.", "quantifier": "every set of declared outputs and every set of written files", "why_tests_cant": "All pairs of sets.", "anchors": ["src/tup/db.c: tup_db_check_actual_outputs 5867-5897, extra_output, missing_output", "src/tup/db.c: compare_tent_trees 5747-5784", "src/tup/file.c: update_write_info"]}
{"id": "C24", "title": "Inputs are recorded exactly", "statement": "When a command succeeds the recorded dependencies of the command equal the files it actually read (minus its own outputs); reading a generated file that the command does not declare, and that is not reachable through its declared inputs, is an error.", "quantifier": "every previous dependency set, declared set, read set and output set", "why_tests_cant": "All quadruples of sets over all graphs.", "anchors": ["src/tup/db.c: tup_db_check_actual_inputs 6198-6240, new_input, new_normal_link, del_normal_link, check_generated_inputs"]}
{"id": "C25", "title": "Parsing makes declared links current", "statement": "After a rule is written, the stored declared inputs and outputs of its command are exactly those of the rule, its files are in the rule's group and in no other, and nothing about other commands changes. The command is scheduled to run exactly if it was already, its string, flags, outputs or group changed, an input that it had used or a group is no longer declared, or an environment variable is newly declared; an input that is merely added does not schedule it. A rule that is stored already changes nothing, and only such a rule is accepted by tup refactor.", "quantifier": "every stored link state and every new rule", "why_tests_cant": "All pairs of sets; repeated parses.", "anchors": ["src/tup/db.c: tup_db_write_inputs 6001-6070, tup_db_write_outputs 6333-6441, add_sticky, rm_sticky 5910-5999", "src/tup/parser.c: do_rule 3718-3721"]}
{"id": "C26", "title": "Ordered-set comparison is exact", "statement": "Comparing two id sets reports each element only in the first, each element only in the second, exactly once each and nothing else.", "quantifier": "every pair of finite id sets", "why_tests_cant": "All pairs of sets.", "anchors": ["src/tup/db.c: compare_tent_trees 5747-5784", "src/tup/vardb.c: vardb_compare"]}
{"id": "C27", "title": "A file has at most one producing command", "statement": "At every point in every history of scans, parses and builds, no generated file is the output of two different commands. A rule that lists an output of a command which stays (its Tupfile is not parsed again in this update, or a rule has already claimed it) is rejected; in particular, of two rules with the same output in one update the second is rejected, whatever is parsed in between. An accepted rule's command has exactly the files the rule lists.", "quantifier": "every history of rules added and removed", "why_tests_cant": "Histories are unbounded.", "anchors": ["src/tup/db.c: tup_db_create_unique_link 3339-3385, tup_db_get_incoming_link 3450-3486", "src/tup/parser.c: validate_output 3161-3204"]}
{"id": "C28", "title": "The work graph is exactly what is reachable", "statement": "The graph built for an update contains exactly the nodes reachable from the scheduled nodes through recorded links, with exactly the recorded links between them as edges.", "quantifier": "every finite link relation and every scheduled set", "why_tests_cant": "All graphs; depth-first expansion with an explicit stack and intrusive lists.", "anchors": ["src/tup/graph.c: build_graph 537-610, make_edge 288-322, build_graph_cb 378-391"]}
{"id": "C29", "title": "Circular dependencies are detected", "statement": "The circular dependency error while building the work graph is given only if some cycle is reachable from the scheduled nodes. If any cycle is reachable, the update ends with an error, and nothing on the cycle or depending on it is run.", "quantifier": "every finite link relation and every scheduled set", "why_tests_cant": "All graphs and all schedules: the check while building misses some cycles, which the executor then has to refuse to run.", "anchors": ["src/tup/graph.c: make_edge 288-322, build_graph 537-610", "src/tup/updater.c: execute_graph 1867-2040, pop_node 1812-1860"]}
{"id": "C30", "title": "Commands run in dependency order, at most once", "statement": "In every parallel update, whatever the completion order and result of the jobs, a node is started only after all its predecessors in the work graph completed successfully, and no node is started twice.", "quantifier": "every acyclic work graph, job limit, and every interleaving and outcome of job completions", "why_tests_cant": "Scheduling nondeterminism.", "anchors": ["src/tup/updater.c: execute_graph 1867-2040, pop_node 1812-1860"]}
{"id": "C31", "title": "The job limit is respected", "statement": "At no time are more than the configured number of jobs running; the configured number is clamped to at least one and at most 65535.", "quantifier": "every graph and schedule, every configured value", "why_tests_cant": "Scheduling nondeterminism.", "anchors": ["src/tup/updater.c: execute_graph, updater 178-185"]}
{"id": "C32", "title": "A failure-free update runs everything and terminates", "statement": "If no job fails and no signal arrives, every node of the work graph is eventually executed, the executor terminates after finitely many steps without deadlock, and reports success.", "quantifier": "every acyclic work graph and every fair schedule", "why_tests_cant": "Termination over all schedules.", "anchors": ["src/tup/updater.c: execute_graph, pop_node"]}
{"id": "C33", "title": "Failures stop dependents; keep-going runs the rest", "statement": "Nothing downstream of a failed node is ever started. Without keep-going no job is started after a failure has been seen. With keep-going every node not downstream of a failed node is executed. In both cases the update reports failure.", "quantifier": "every graph, failure pattern and schedule", "why_tests_cant": "Scheduling nondeterminism times failure patterns.", "anchors": ["src/tup/updater.c: execute_graph"]}
{"id": "C34", "title": "Unfinished work stays scheduled", "statement": "If an update stops at any point (a failing command, a signal, a crash between transactions), every command that has not completed successfully since it was scheduled is still scheduled for the next update, and a completed one is not repeated.", "quantifier": "every graph, schedule, failure pattern and stop point", "why_tests_cant": "Crash points times schedules.", "anchors": ["src/tup/updater.c: update_work 2131-2218, process_update_nodes 1638-1692", "src/tup/db.c: tup_db_unflag_modify"]}
{"id": "C35", "title": "Incremental updates give the same result as a full build", "statement": "After a successful update every generated file has the content its command would produce from the current contents of the files that command reads, whatever sequence of edits, scans and updates (successful, failed or killed) came before; so an incremental update gives the files a full build gives. Exception: after a failing ^o command has left an output file where there was none before, a later update can leave files depending on it out of date.", "quantifier": "every project with fixed rules (no groups, no transient files), every history of edits, scans, updates and crashes, every command behaviour that is a function of the files it reads, every schedule of the parallel executor", "why_tests_cant": "Unbounded histories; the core promise of a build system.", "anchors": ["src/tup/create_name_file.c: tup_file_mod_mtime, tup_del_id_type", "src/tup/updater.c: process_update_nodes, update_work", "src/tup/graph.c: build_graph", "src/tup/db.c: tup_db_modify_cmds_by_input, tup_db_modify_cmds_by_output"]}
{"id": "C36", "title": "Partial updates run exactly what the targets need", "statement": "When targets are named on the command line, the commands executed are exactly those scheduled commands that are a target or from which a target can be reached, with all their dependencies and outputs present; every other scheduled command stays scheduled.", "quantifier": "every work graph and target set", "why_tests_cant": "All graphs.", "anchors": ["src/tup/graph.c: prune_graph 817-908, mark_nodes 736-770, prune_node 772-815"]}
{"id": "C37", "title": "Unchanged outputs stop the rebuild (^o)", "statement": "A command that an update passes over without running it was not scheduled and none of the files it used was scheduled or changed; conversely a command runs only if it was scheduled, or a file it used was scheduled or comes from a command that ran and has no ^o flag, changed that file, or stopped using a generated file. So unchanged outputs of a ^o command stop the rebuild and changed ones do not.", "quantifier": "every graph and every assignment of changed/unchanged outputs", "why_tests_cant": "All graphs.", "anchors": ["src/tup/updater.c: skip_output, unskip_outputs 2493, check_outputs 2505-2536, process_output", "src/tup/updater.c: pop_node"]}
{"id": "C38", "title": "Group cycles are found", "statement": "The group check reports an error exactly when the groups and commands contain a cycle.", "quantifier": "every finite graph", "why_tests_cant": "All graphs; repeated removal of sources and sinks.", "anchors": ["src/tup/graph.c: trim_graph 910-928, group_circ_check 1422-1444"]}
{"id": "C39", "title": "Reachability test for generated inputs", "statement": "The check that a read generated file is an ancestor-reachable declared input answers yes exactly when a path exists.", "quantifier": "every finite graph and pair of nodes", "why_tests_cant": "All graphs.", "anchors": ["src/tup/graph.c: nodes_are_connected 678-731"]}
{"id": "C40", "title": "Ghost entries are reclaimed exactly", "statement": "At commit, an entry kept only for a file that does not exist is deleted if nothing refers to it any more, including parents that become unreferenced by that deletion, and an entry that something refers to is never deleted.", "quantifier": "every database state and worklist", "why_tests_cant": "All states; cascading deletions.", "anchors": ["src/tup/db.c: reclaim_ghosts 7080-7148, ghost_reclaimable 7150-7177"]}
{"id": "C41", "title": "File changes schedule what depends on them", "statement": "When a scanned file is new, has a different modification time, or is gone, then exactly what depends on it is scheduled: a changed file is marked as modified (so that the update reaches the commands reading it), its producing command is run if it is generated, and the directories and configurations reading it are read again; a removed file also schedules the commands reading it and the directory it was in; a removed directory does so for everything in it and for the Tupfiles that generate files in it, and changes nothing outside otherwise; an unchanged file schedules nothing. Nothing outside of what is removed is scheduled without such a reason.", "quantifier": "every database state and file event", "why_tests_cant": "All states.", "anchors": ["src/tup/create_name_file.c: tup_file_mod_mtime 118-212, tup_del_id_type 319-500", "src/tup/db.c: tup_db_set_dependent_flags, tup_db_modify_cmds_by_input, tup_db_modify_cmds_by_output"]}
{"id": "C42", "title": "Environment changes are detected", "statement": "A change (set, unset, different value) of an environment variable that is known to the database schedules exactly the commands and Tupfiles that use it, and the stored values become those of the environment. With the environment check disabled nothing is scheduled and commands see the stored values. A variable used for the first time is stored with its current value, so that later changes are noticed.", "quantifier": "every stored environment and every actual environment", "why_tests_cant": "All pairs of maps.", "anchors": ["src/tup/db.c: env_cb 5099-5165, tup_db_check_env 5167"]}
{"id": "C43", "title": "Failed parses leave the database as it was", "statement": "If parsing the Tupfiles fails, at whatever point and after whatever changes, then the recorded state is the one at the time the parsing began (what the file scan and the reading of the configuration found is recorded separately before): this holds at every moment at which the process could be killed, and when it ends. If it succeeds and the final removal of unused nodes does too, then all of its changes are recorded, by one operation: at every moment the recorded state is the old one or the complete new one. An update that is killed at any moment leaves what one of its phases recorded, never a part of a phase.", "quantifier": "every content of the database, every sequence of changes in each part, every failing part, every moment of interruption", "why_tests_cant": "There are many failure points and moments of interruption, and most of them can't be provoked from outside.", "anchors": ["src/tup/updater.c: process_create_nodes 1384-1636", "src/tup/db.c: tup_db_begin, tup_db_commit, tup_db_rollback 741-842"]}
{"id": "C44", "title": "Locks: one user of the database at a time", "statement": "With any number of tup processes and monitors following the three-lock protocol, at most one of them uses the database at any time, whoever is started, stopped or killed. If a monitor is only started when no other one is left, is not stopped or restarted while the parent that started it still waits, and nobody is killed, then in addition: while a monitor runs every other process gets the database from the monitor directly (so the monitor has had it between any two others), and there is no deadlock: some process can always go on until all are done, whatever the order, and this takes a bounded number of steps.", "quantifier": "every number of processes and every interleaving", "why_tests_cant": "Interleavings; the source comment itself asks for a proof.", "anchors": ["src/tup/lock.c: tup_lock_init, tup_lock_exit 82-117", "src/tup/monitor/inotify.c: monitor_loop 531-674"]}
{"id": "C45", "title": "Monitor event queue keeps the database in step", "statement": "After any sequence of file creations, writes, removals and moves, in which no file is removed or moved on while the event of the move that put it there is still waiting: once the monitor has read every event and flushed its queue, a file is recorded as present exactly when it exists, in whatever way its reading and flushing were mixed with the operations and its events were coalesced. Without that condition every existing file is still recorded, but a removed one may stay recorded. If moreover no name is used again while the event of a move away from it is waiting, the monitor never reads freed memory, and it can always catch up.", "quantifier": "every sequence of file operations, every interleaving with the monitor's reads and flushes", "why_tests_cant": "All event sequences and all interleavings.", "anchors": ["src/tup/monitor/inotify.c: queue_event 739-794, ephemeral_event 1003-1060, check_from_events, flush_queue, handle_event"]}
{"id": "C46", "title": "Option precedence", "statement": "An option's value is taken from the command line if given there, otherwise from the project, user and system files in that order, otherwise from the default; in each place the last setting counts. tup options prints that value and the place it is from. tup refuses to start exactly if an argument is malformed, a file has a line that is neither blank, comment, section, setting nor continuation, or a file gives a known option a value that is not allowed. Whatever the files contain, a value that is taken from a file is allowed for its option, and a flag is 0 or 1.", "quantifier": "every command line and environment, and every combination of option files; for precedence and refusal, files whose lines have at most 198 bytes and no NUL byte (longer lines are read as several lines; c46_false_for_long_lines)", "why_tests_cant": "All combinations.", "anchors": ["src/tup/option.c: tup_option_get_string 348-375, parse_cmdline_options 232-275, parse_callback 410-439"]}
{"id": "C47", "title": "Id-keyed sets behave like sets", "statement": "In every history of insertions, removals and lookups on a set keyed by node id, with any rebalancing of the underlying tree, all answers are those of a mathematical set, iteration is in ascending order and the counter is the number of ids, provided all ids in the history lie in an interval of length 2^31 (true while fewer than 2^31 nodes exist). Without the proviso this is false: ids 2^32 apart are taken for the same id.", "quantifier": "every sequence of insertions, removals and lookups, every id", "why_tests_cant": "The 64-bit ids are compared by truncating their difference to 32 bits.", "anchors": ["src/tup/tupid_tree.c: tupid_tree_cmp", "src/tup/tent_tree.c: tent_tree_cmp"]}
{"id": "C48", "title": "Growable strings never overflow", "statement": "Appending to a string buffer always yields the concatenation, keeps a terminator, and never writes outside the allocation, as long as the total length stays below 2^30.", "quantifier": "every sequence of appends", "why_tests_cant": "All lengths.", "anchors": ["src/tup/estring.c: estring_init, estring_append 26-59"]}
{"id": "C49", "title": "Variable stores behave like maps", "statement": "Setting, appending, copying and reading variables behaves like the corresponding operations on a finite map from names to strings, with a correct count.", "quantifier": "every sequence of operations", "why_tests_cant": "Operation histories.", "anchors": ["src/tup/vardb.c: vardb_set2, vardb_append, vardb_copy, vardb_get 50-185"]}
{"id": "C50", "title": "Reserved and duplicate outputs are rejected", "statement": "A rule is rejected if its outputs include (by the path as written, outside variants) Tupfile, Tuprules.tup, Tupfile.lua, Tuprules.lua or tup.config; the same file twice, by whatever paths; two groups; the same exclusion twice; an existing file that no command generates; a file or group that the rule also reads; in a variant, a file that is there under that path in the source directory (but for rules that copy a file to the variant, which have exactly one input and one output file); or if the same Tupfile has the same command already. Reserved names in other directories and in variants are not rejected (shown by counterexamples). A rule that none of these reasons is against is accepted: its outputs have places of their own, of which source files, foreign outputs and names that are not allowed are none; at most one is a group; its command is new to the Tupfile; its inputs are there and are not outputs, and its group is not read by the commands that make them.", "quantifier": "every rule and database state", "why_tests_cant": "All combinations.", "anchors": ["src/tup/parser.c: do_rule_outputs 3206-3413, validate_output 3161-3204, do_rule 3475-3726"]}
{"id": "C51", "title": "Which commands a rule makes", "statement": "A foreach rule (foreach in the rule or in the macro it calls) produces exactly one command per distinct input, in input order; a plain rule produces exactly one command for all inputs if it has inputs or was written without any, and none (or the one of the macro's variant for no inputs) if all its input patterns matched nothing. A macro supplies the command text, the outputs if the rule has none, and its extra outputs and order-only inputs; the variant for the extension of the input is preferred, and nothing of one input's command is carried over to the next.", "quantifier": "every rule, every macro table, every input list, every outcome of resolving paths and creating commands", "why_tests_cant": "All lists.", "anchors": ["src/tup/parser.c: execute_rule 2124-2274, parse_rule 1487-1554"]}
{"id": "C52", "title": "Saved outputs of a failing ^o command are restored", "statement": "A command runs without its previous outputs. If it has the ^o flag and it runs and fails, every previous output is back under its own name with its old content and its time stamp recorded, and all other files are as the command left them; if it succeeds the tree is as the command left it. Without ^o the tree stays as the command left it in either case. With an unknown flag nothing is touched. (All provided that the moves themselves do not fail.)", "quantifier": "every set of outputs and every subset written by the command", "why_tests_cant": "All subsets and results.", "anchors": ["src/tup/updater.c: move_outputs 2279-2328, restore_outputs 2330-2377, unlink_outputs 2538-2575, process_output 2596-2661, update 2924-3082"]}
{"id": "C53", "title": "Double-quoted expansions survive the shell", "statement": "For every file name, the text that %\"f adds to a command line for that name is read by a POSIX shell as exactly that one word if and only if the name has no dollar sign and no backquote, and every backslash in it is followed by a character that is neither a double quote nor a backslash nor a newline. (For other names it is not: the code escapes double quotes only.)", "quantifier": "every file name", "why_tests_cant": "All byte strings through a quoting function and the shell's tokeniser.", "anchors": ["src/tup/estring.c: estring_append_escape 59-83", "src/tup/parser.c: tup_printf 3973-3991"]}
{"id": "C54", "title": "ifeq compares the expansions of its two sides", "statement": "ifeq (L,R), where L has no comma, selects its branch exactly if L and R expand to the same text; it fails exactly if one of them cannot be expanded; a text without parenthesised comma separated sides is a syntax error (except that a closing parenthesis in front of the comma is accepted in place of one at the end).", "quantifier": "for all texts L, R, all texts around the parentheses and all variable values", "why_tests_cant": "There are infinitely many texts; tests use a handful of short words without special characters.", "anchors": ["src/tup/parser.c:705-749"]}
{"id": "C55", "title": "Names, directories and extensions of inputs", "statement": "For a file found in a directory the name list entry splits the path at the last slash and the extension at the last dot of the file name (a leading dot alone is not an extension); for an explicitly given path the same holds as long as the file name contains a dot behind its first character.", "quantifier": "every path, every file name", "why_tests_cant": "All paths and names.", "anchors": ["src/tup/parser.c: build_name_list_cb 2899-2957, set_nle_base 3756-3773, nl_add_external_path 2807"]}
{"id": "C56", "title": "What a wildcard matched", "statement": "For an input that matches a pattern with one '*' followed by literal text, the recorded match is exactly the part of the name standing where the star is; for '?' or a bracket it is the single character; for a pattern equal to the name nothing is recorded.", "quantifier": "every pattern of that form and every matching name", "why_tests_cant": "All patterns and names.", "anchors": ["src/tup/parser.c: glob_parse 2979-3115"]}
{"id": "C57", "title": "Macro definitions", "statement": "A macro definition succeeds exactly if the line has the form '!name = [foreach] [| order-only inputs] |> command |> outputs [| extra outputs]' or '!name = !other' with other defined; it then changes the table of macros at that name only, an alias gets what the other macro is at that time, and redefinition replaces everything. A macro cannot be an alias of itself. Only a definition of a new macro whose outputs cannot be parsed has undefined behaviour.", "quantifier": "every line and every table of macros", "why_tests_cant": "All lines and all tables.", "anchors": ["src/tup/parser.c: parse_bang_definition 1591-1734, split_eq 1556-1573"]}
{"id": "C58", "title": ".gitignore lists exactly the generated files", "statement": "The .gitignore that tup writes has one line for each generated file and directory of its directory, in order (its own line is left out when it has text of the user), and read by git's rules the line for a name without \\, * and ? ignores exactly that name; for any name without \\ at least that name is ignored.", "quantifier": "every list of names of at most 2048 bytes, every file name that git compares with the line", "why_tests_cant": "All file names; the matching rules of git have to be taken into account.", "anchors": ["src/tup/db.c: write_gitignore_line 2333-2372, tup_db_write_gitignore 2374-2437", "src/tup/updater.c: gitignore 1257-1382"]}
{"id": "C59", "title": "Outputs count as unchanged exactly if they are", "statement": "After a command with the ^o flag has succeeded, one of its outputs counts as unchanged (so that commands that only depend on it need not run) exactly if no important link was removed and the file is there with the same mode and the same content as before the run; without ^o no output counts as unchanged.", "quantifier": "every set of outputs, all contents of any length, every behaviour of the command", "why_tests_cant": "Contents of any length are compared in blocks of 4096 bytes; tests sample a few short files.", "anchors": ["src/tup/updater.c: compare_files 2379-2433, compare_links 2435-2461, compare_paths 2463-2493, check_outputs 2505-2536, unskip_outputs 2495-2504"]}
{"id": "C60", "title": "A full scan brings the database in step with the disk", "statement": "A full scan of the project comes to an end. Afterwards every file and directory on the disk is recorded under its path, a file with its modification time; every source file and directory of the user that is recorded is on the disk under its path, with that time; the commands that make a generated file that is missing or has been changed are scheduled; a command that reads a source file that is gone or has another time is scheduled, or the file is on the list of modified files; a new file is on that list, or its directory is going to be parsed. A scan of a project in which nothing has changed leaves the database as it is. Excepted are names that tup ignores, the virtual top directories, what lies in a node named tup.config, and things that are neither files nor directories: a file that is replaced by a named pipe or socket is not noticed.", "quantifier": "every sound database, every tree of directories on the disk, every order of the entries", "why_tests_cant": "All combinations of recorded trees and trees on the disk (files that became directories, directories that became files, ghosts, generated directories, any depth).", "anchors": ["src/tup/path.c: watch_path_internal 42-157, watch_path 159-169, tup_scan 316-327", "src/tup/create_name_file.c: tup_file_mod_mtime 118-212, tup_file_missing 263-285, tup_del_id_type 319-489", "src/tup/db.c: tup_db_create_node_part_display 999-1139"]}
{"id": "C61", "title": "Missing temporary files are made again exactly when they are needed", "statement": "When an update is prepared in a project with transient (^t) commands, the commands put into the work graph are exactly those reached from modified nodes, and those transient commands that are not reached but make a missing file or fill a group that is a declared input of a command in the graph, directly or through a chain of transient commands; a transient command nobody needs is not run. With them the files they make are in the graph, in such a way that the command making a temporary file has succeeded before a command using it starts, and the file is not deleted before. Building the graph ends; it fails only for a cycle, or if a file or group of such a command is in the graph already (two transient commands filling one group, or one output of several left from a failed update).", "quantifier": "every database: all links, groups, sets of modified nodes and of leftover transient files; every execution of the graph", "why_tests_cant": "All graphs with chains of transient commands and leftovers of failed updates; tests have a few fixed ones.", "anchors": ["src/tup/graph.c: build_graph_transient_cb 338-361, build_graph_non_transient_cb 363-376, attach_transient_nodes 468-535, build_graph 537-605", "src/tup/updater.c: process_update_nodes 1638-1656"]}
{"id": "C62", "title": "%<group> is replaced by exactly the files of the group", "statement": "Before a command is run, each %<group> in it is replaced by the paths of the generated files in the groups of that name among its inputs, separated by single blanks, and each %<group>.res by the path of a new file in .tup/tmp with these paths as its lines; all other text stays and the inserted text is not expanded again. The paths lead from the directory of the command to the files, and (outside of variants) that of the resource file to it. A reference to a group that is not an input, or without its >, is an error, and the groups used are recorded.", "quantifier": "every command text, all groups and trees of files", "why_tests_cant": "All texts, e.g. % signs next to references, names with %< in the inserted paths, several groups of one name.", "anchors": ["src/tup/updater.c: expand_group 2721-2763, expand_res_file 2774-2814, expand_command 2816-2876"]}
{"id": "C63", "title": "The object pools never hand out memory that is in use", "statement": "Whatever threads allocate objects of a type and give them back, to their own pool or that of another thread, the objects in use never have a byte in common with each other or with objects that have been given back; each is aligned for its type and lies inside memory got from malloc. An allocation fails only if malloc does, and then changes nothing. This holds as long as a thread has not used up 4 GB for objects of one type; then the size of the next block has overflowed to 0 and memory outside of any block is handed out.", "quantifier": "every object size and alignment, every history of allocations and releases of any number of threads, every behaviour of malloc", "why_tests_cant": "All histories and sizes; corruption by overlapping objects shows only by chance.", "anchors": ["src/tup/mempool.c: mempool_alloc 30-89, mempool_free 91-97", "src/tup/mempool.h: struct mempool 31-42"]}
{"id": "C64", "title": "The preloaded library reports exactly the accesses of all processes", "statement": "When dependencies are found with the preloaded library, the processes of a command write their file accesses into one file, taking turns in any way; when they are done, tup reads from it exactly the accesses of all processes, those of each process in their order, with the names made into paths from the root by the directory they were relative to. Left out are the calls in which one of the names lies in /dev, /sys or /proc or belongs to ccache or icecream (also a rename from such a place into the project). A path of 4095 bytes or more makes the command fail. No process waits for ever for the lock. If a process is killed while it records an access, the accesses after it can be lost without an error.", "quantifier": "every number of processes, all sequences of calls, every interleaving of their writes, all names", "why_tests_cant": "All interleavings of the single writes of several processes; tests have no control over them.", "anchors": ["src/ldpreload/ldpreload.c: handle_file_locked 631-690, ignore_file 726-737", "src/tup/server/depfile.c: process_depfile 390-463", "src/tup/access_event.h: struct access_event 37-60", "src/tup/ccache.c: is_ccache_path 24-44"]}
{"id": "C65", "title": "Each caller gets the exit status of its own command", "statement": "The threads of tup that run commands send their requests over one socket to the process that starts the commands, and get the results back over it. However the threads, that process, its children and the two helper threads take turns: a call that returns gives the exit status of the one command that was started for it, with exactly the directory, command line, environment and variables of that call; nothing is started twice or without a request; the thread that hands out results never fails; and as long as the thread that waits for the children has not stopped, all calls can still return. That thread stops only if a child ends between its fork and its entry in the tree while another child is there, or if a process id is used again before the old entry is removed; both can happen, and then the calls never return.", "quantifier": "every number of calls with any arguments, every interleaving of the single writes, reads, forks, exits and waits, every choice of process ids", "why_tests_cant": "The interleavings are not under the control of a test; the window of the race is a few instructions wide.", "anchors": ["src/tup/server/master_fork.c: master_fork_exec 306-349, master_fork_loop 620-742, child_waiter 779-833, child_wait_notifier 835-861, wait_for_my_sid 863-873", "src/tup/thread_tree.c"]}
{"id": "C66", "title": "A command runs with exactly the exported environment", "statement": "The environment of a command consists of the variables that were exported for it and are set, with the values they have in the environment of tup, in the order of their nodes, then CCACHE_NODIRECT=1 and the variables tup uses for its own library; a script run from a Tupfile gets the same without the latter. No other variable is visible to the command. The block and the array of pointers are built without an access outside of their memory. An import gives the value of the variable, or the default if it is not set.", "quantifier": "all environments, all lists of inputs of a command, all names and values", "why_tests_cant": "All sizes and numbers of variables; an array that is one too short shows only by chance.", "anchors": ["src/tup/db.c: envdb_set 5074-5097, tup_db_get_environ 5223-5289", "src/tup/server/master_fork.c: 700-721", "src/tup/server/depfile.c: server_setenv 80-122", "src/tup/server/fuse_server.c: 721-743", "src/tup/parser.c: import 1086-1140"]}
{"id": "C67", "title": "Exactly the outputs without a rule are deleted", "statement": "After the Tupfiles of an update have been parsed, tup unlinks exactly the generated files that no accepted rule lists any more and whose directory was either parsed in this update, and nobody but tup has changed the file since, or has been removed. A file that an accepted rule lists is never unlinked, and the command of that rule writes it afterwards. A file without a rule that somebody has changed becomes an ordinary file with the same name. All other generated files stay as they are. Afterwards every generated file of a parsed directory is listed by one of its rules, and its commands are exactly those of its rules. If the parsing fails nothing is unlinked, and if anything fails the database stays as it was.", "quantifier": "all histories of the database, all sets of directories to be parsed, all orders of parsing, all rules, all orders of deletion, all failures of unlink", "why_tests_cant": "A file may move between rules and directories in any order, and a wrong deletion destroys data of the user.", "anchors": ["src/tup/parser.c: parse 173-250, split_roots 498-518, do_rule 3647-3674", "src/tup/updater.c: delete_files 679-767, process_create_nodes 1384-1620, create_work 2084-2112", "src/tup/db.c: tup_db_srcid_to_tree 3803-3865, tup_db_create_node_part_display 1100", "src/tup/create_name_file.c: tup_del_id_type 319-489"]}
{"id": "C68", "title": "The variants that are built are the directories with a tup.config", "statement": "After the tup.config files of an update have been processed, the variants in use are all directories other than the top that have a tup.config, or the project itself (built in place) if there is none, and the saved list says the same to the next program. If the project was built in variants and is now built in place, the Tupfiles are parsed again. The files that were built in place are deleted exactly when the project was built in place and now is not. The directories are duplicated for every variant that was not in use before. What was built in a variant is deleted exactly when its tup.config is gone. This holds if no variant below another directory than the top is removed, and if a removed directory of a variant that is made again between two updates has a tup.config again; otherwise it is false.", "quantifier": "all histories of scans and updates with any changes of tup.config files and directories, updates that fail included, all orders of the lists, all numbers of variants", "why_tests_cant": "What is done depends on the variants of the last update, on the files that have changed since, over any number of scans, and on the order of two lists.", "anchors": ["src/tup/updater.c: process_config_nodes 895-1150, is_valid_variant_tent, recurse_delete_variant", "src/tup/variant.c: 36-150", "src/tup/db.c: 1048-1066", "src/tup/create_name_file.c: 199-230"]}
{"id": "C69", "title": "A directory is parsed from the right files, and depends on all that decide this", "statement": "A directory is parsed from its Tupfile, or else its Tupfile.lua, or else the Tupdefault or Tupdefault.lua of the nearest directory upwards that has one, each read in the directory that is parsed. An include reads the named file, resolved by names relative to the directory of the including file (or from the root for an absolute path), in the place of the include and in the file's own directory, and then goes on in the old one. include_rules includes the Tuprules.tup of every directory from the top down to the current one, as far as there are any, and cannot be used inside of it; in front of a Lua file the Tuprules.lua files are included in the same way. A file that is unknown or cannot be read, or an inclusion without end, fails the directory. The nodes that are written down as dependencies of the directory decide the result: as long as they stay as they are, parsing gives the same.", "quantifier": "all trees of files, all directories, all paths, all meanings of the lines of a file (any sequence of includes depending on the state), all depths of inclusion", "why_tests_cant": "Inclusion nests without a bound and each file can include depending on what the ones before did; a dependency that is missing only shows in a later update.", "anchors": ["src/tup/parser.c: parse 263-298, open_if_entry 398-424, open_tupfile 441-499, parser_include_rules 791-843, check_toplevel_gitignore 1274-1368, parser_include_file 1370-1468", "src/tup/create_name_file.c: find_dir_tupid_dt_pg 561-660", "src/tup/luaparser.c: 134-158, 816-828"]}
{"id": "C70", "title": "Commands that run at the same time do not see each other", "statement": "A command that runs among others gets from the mounted file system exactly the answers that it would get if it ran alone, tup notes the same files as read, written and deleted by it, and the same files are moved into the tree when it ends; it must only be that the files it asks for are not changed in the tree meanwhile (by the end of another command, or from outside). What one command does changes neither the tree nor what another sees; the end of one leaves what another has made; two files never share a temporary file. What processes of a command do after it has ended has no effect. A request in the directory of a job is assigned to that job and to the path without the directory.", "quantifier": "all numbers of jobs, all interleavings of starts, requests, ends and changes of the tree, all paths", "why_tests_cant": "The number of interleavings is unbounded; a file that leaks between two jobs shows only in a rare order of requests.", "anchors": ["src/tup/server/fuse_fs.c: 71-163 and the requests", "src/tup/server/fuse_server.c: 464-584", "src/tup/file.c: 700-833"]}
{"id": "C71", "title": "The copies of database rows in memory are invisible", "statement": "tup keeps copies of the nodes it has met in memory, with pointers from a directory to what is in it. Whatever sequence of look-ups, insertions, renames, changes of fields, deletions, glob queries and loads came before, each call returns the rows, and changes the table, exactly as if there were only the table; it fails only if the table does not allow what is asked for. So what the calls return does not depend on what is in memory, and a process that ends and another that continues changes nothing. The same holds for the inputs of a command that are kept with it: they are those in the table at the moment they are asked for. Conditions: times fit into 32 bits, nothing is deleted before what is in it, the transaction is not rolled back by a process that goes on.", "quantifier": "all sound tables, all sequences of calls, all contents of the memory that such sequences produce", "why_tests_cant": "A stale copy shows only after a certain order of calls; the number of orders is unbounded.", "anchors": ["src/tup/entry.c: 55-164, 307-352, 474-576, 669-687", "src/tup/db.c: 1141-1212, 1387-1501, 1582-1622, 2044-2321, 3565-3604, 5380-5467, 5692-5744, 6520-6854, 7604-7666"]}
{"id": "C72", "title": "The script of tup generate does what an update does", "statement": "If `tup generate` succeeds, then running the script it wrote with a POSIX shell in the top directory does the following: it makes the directories of the build directory (if one was given) and the directories which tup makes for the files of the graph, and no others; then it runs the commands of the graph, each with its own text and in its own directory, each exactly once, and each after every command it depends on; and it stops at the first command that fails. Conditions: the names of the directories have no characters that are special in double quotes and do not begin with a dash; the build directory has a name that needs no quotes, and tup makes no directories in it; the commands can be put into parentheses (no comment at the end, quotes and parentheses closed); the arguments of `tup generate` have no newline. Each condition is needed: there is a counterexample for each.", "quantifier": "all graphs of commands, all orders of execution, all places of directories, all texts of commands, all file systems in which the directories of the commands are there", "why_tests_cant": "The script has a `cd` for each change of directory that depends on the command before; the orders and places are unbounded.", "anchors": ["src/tup/updater.c: 222-239, 340-351, 432-456, 497-519, 2220-2259", "src/tup/entry.c: 198-263, 287-306"]}
{"id": "C73", "title": "Every build directory repeats the tree of the sources", "statement": "After a successful update, every build directory (variant) holds, for each directory of the sources, exactly one directory that stands for it, at the same path below the build directory; each directory that stands for one is at the path of that directory; and no directory whose source is gone is left. This holds after any history of directories being found and missed by scans (in the sources and in the build directories), directories being parsed again for other reasons, build directories right below the top being made and given up, and updates, provided that when a directory of the sources comes up (or a build directory that is given up turns back into one) there is no directory at its place in a build directory. It fails, for ever, without the conditions: a directory removed and made again between two updates has no build directory; one that the monitor saw moving to another parent has two; one that was a ghost before has none; a build directory further down deletes directories of the other build directories.", "quantifier": "all histories, all trees of directories, any number of build directories", "why_tests_cant": "Which of the nodes are flagged and in which order they are visited depends on the whole history; a missed directory shows only in later updates.", "anchors": ["src/tup/updater.c: 797-859, 871-895, 1019-1037, 1156-1265, 1384-1488", "src/tup/db.c: 1622-1655, 1700-1766, 1858-1930", "src/tup/create_name_file.c: 300-420"]}
{"id": "C74", "title": "Parsing only what changed gives the same commands as parsing everything", "statement": "An update parses only the Tupfiles of directories that changed and of those that, when they were parsed the last time, looked (directly or not) into such a directory; a Tupfile that looks into a directory still to be parsed has that one parsed first. After a successful update that leaves no circle of directories, the commands recorded for each directory are those its Tupfile gives when it is parsed after all Tupfiles it looks at: they depend on the sources alone, not on the history or on the order in which the directories come up, and nothing is left to be parsed. Such an update is possible exactly if no Tupfile is wrong or in a circle; an order exists after any history of such updates. A circle of Tupfiles is not always reported: if it is entered from a third directory the update succeeds with commands that depend on the order, and from then on the project cannot be updated, even when the circle has been taken out of the Tupfiles.", "quantifier": "all Tupfiles (as arbitrary programs that make commands and react to the names found in directories), all histories of edits and updates, all orders", "why_tests_cant": "Whether a directory that is not parsed again is still right depends on all earlier parses, the links they left and every possible order; a test compares a few projects.", "anchors": ["src/tup/parser.c: 158-396, 2276-2288, 2576-2638, 2674-2960", "src/tup/updater.c: 1384-1645, 1862-2060, 2084-2112", "src/tup/db.c: 6476-6498", "src/tup/graph.c: 288-320, 537-600"]}
{"id": "C75", "title": "tup refactor accepts exactly the Tupfiles that change nothing", "statement": "`tup refactor` succeeds exactly if the rules of the Tupfile ask for the commands that are recorded: each rule has a command with the same string, display string, flags, inputs, outputs, excluded outputs and group, no two rules have the same command, and no command is without a rule (the order of the rules and the variables and macros they come from do not matter). If it succeeds, no command is changed and none is scheduled; only the directory-level dependencies are brought up to date. Equivalently, it succeeds exactly if an ordinary update would succeed and leave all commands as they are; an ordinary update always leaves exactly the commands that the rules ask for. A new display string is not reported where it is found but only by the count of changes at the end, as an internal error.", "quantifier": "all databases without two commands of the same string or two commands for a file, all lists of rules (for the comparison with an ordinary update: in which no file has two rules)", "why_tests_cant": "Any of the parts of a command may differ, the differing rule may be anywhere among others that match by string or by output, and the end result depends on how the changes of all rules add up; the tests change one thing at a time.", "anchors": ["src/tup/parser.c: 158-396, 3105-3120, 3475-3727", "src/tup/db.c: 805-813, 2044-2190, 3339-3385, 5899-6067, 6268-6498", "src/tup/updater.c: 187-190, 679-719, 1384-1394, 1627-1636"]}
{"id": "C76", "title": "A database of an older version is brought up to date without losing anything", "statement": "When tup opens a database written by an older tup (versions 3 to 18) it ends with the present version, and its tables, keys, unique constraints and indexes are those of a new database. Every node is still there with its id, type, name and time stamp, in the same directory; exceptions are ghosts beside a real file of the same name, node 2 (the former directory of variables) and the nodes of groups; the variables are now in tup.config, for which a ghost is made if there is none. No other node appears. All normal links, all sticky links (but those of the nodes of groups), the values of variables and the other settings are kept, what was to be parsed or run still is, and from before version 17 every directory is to be parsed. The old database is in the backup. If the upgrade is not possible (only before version 14, when tup.config already has a node of the name of a variable or both it and node 2 are in a list) or the backup cannot be written, tup fails and the database stays as it was; so it does with a database of a newer version. Opening a second time changes nothing; another parser version schedules all directories and changes nothing else.", "quantifier": "all versions 3 to 18, all contents of the tables that satisfy the constraints of the version (and those that versions 10 and 12 made explicit)", "why_tests_cant": "There are no databases of old versions in the tests; the statements are only ever run on small ones, once, and each one must fit the tables that the fifteen before it left for any contents.", "anchors": ["src/tup/db.c: 52-53, 274-287, 307-438, 467-738, 4647-4741, 7459-7470"]}
{"id": "C77", "title": "Changes of files outside of the project are noticed", "statement": "With full dependency tracking, whatever happened to files outside of the project since they were last looked at, a scan makes what is recorded for each outside path the time of the object there now (or that there is none), and schedules exactly the commands, groups, directories and tup.config files that have a path with a changed time as input; it always comes to its end and changes nothing else in the database. When a command has read an outside path, entries are made for the path and the directories above it that are in step with the disk, no other entry changes, and the path becomes an input unless its time has zero seconds as that of a directory has; this fails only if a directory on the way cannot be opened. So over all histories of scans, additions and removals of entries the records are those of the disk as last looked at. The one condition: a path that stops being a directory shows another time, which holds for all directories but not for symbolic links to directories - when such a link stays the same while its directory goes, files read through it are still recorded as existing and the command is not scheduled. Switching the tracking on schedules every command; switching it off removes all outside paths and their links and schedules nothing; without it nothing outside is looked at.", "quantifier": "all databases, all trees of outside files before and after, all orders in which SQLite returns rows, all histories", "why_tests_cant": "The scan keeps one list for all levels of the recursion and skips subtrees that it takes to be unchanged; whether each entry is visited once and every skip is justified depends on the shapes of both trees and on the whole history.", "anchors": ["src/tup/path.c: 170-327", "src/tup/create_name_file.c: 561-713", "src/tup/file.c: 334-401", "src/tup/updater.c: 586-609", "src/tup/db.c: 1320-1385, 1782-1824, 2439-2482"]}
{"id": "C78", "title": "A bin collects the outputs of the rules that name it and stands for exactly those", "statement": "Behind any lines of a Tupfile there is a bin for exactly the names that a rule among them writes as {name} behind its outputs. It contains, in order and with nothing lost or taken out later, the outputs (not the extra outputs) of all commands of these rules, and the inputs of those rules that have no command. {name} in the inputs of a rule stands for what the rules above have put into the bin, at its place among the other inputs, so a rule whose inputs are bins gets one command for each distinct file with foreach, one for all of them without, and none if they are empty; a regular expression behind it takes out what it matches. In order-only inputs it stands for what was put there before that command, which for a rule with foreach that fills the same bin includes the outputs of its own earlier commands. A rule is rejected if it reads a bin that neither it nor a rule above it fills, and a variable cannot expand to a bin.", "quantifier": "all Tupfiles (sequences of rule lines and other lines), all macros, all file names, all results of looking up paths, of expanding variables and of creating commands", "why_tests_cant": "Tests use a few rules with one or two bins; which files a rule sees depends on the order of all lines before it, on foreach, macros, exclusions and on bins being looked up while they are filled.", "anchors": ["src/tup/bin.c: 25-107", "src/tup/parser.c: 1487-1554, 2026-2096, 2276-2335, 2427-2475, 2538-2553, 2637-2660, 2842-2877, 3475-3545"]}
{"id": "C79", "title": "A path or pattern in the inputs of a rule stands for exactly the files it should", "statement": "A pattern (*, ?, [) in the inputs of a rule stands for exactly the files and generated files that the database has in that directory, and in a variant also those in the directory of the source tree, whose names match, that are not scheduled to be deleted, and that are not made by a rule of a Tupfile other than the one being read and the one of their own directory; each is listed once, the database is not changed, and the only error is a directory that does not exist on disk. A name stands for at most one node: that of the directory, or in a variant, if the directory has none of that name or only a ghost, that of the source directory. It is refused if there is none, if it is a ghost inside of the project, if it is scheduled to be deleted and the source tree has nothing of that name, or if a Tupfile of another directory makes it. A group that does not exist is made, as is, with dependencies on outside files, the node of a file outside of the project; nothing else is changed, and the next lookup gives the same node. Without variants a file that is scheduled to be deleted is never an input.", "quantifier": "all databases with unique names, all directories, names and patterns, all matching functions, all orders of the rows, all sets of files scheduled to be deleted, with and without variants", "why_tests_cant": "What a name stands for depends on the combination of node types in two directories, on which Tupfile made the file, on whether its command was already parsed in this run and on the kind of the rule; tests try a handful of these combinations and never the order in which the database returns rows.", "anchors": ["src/tup/parser.c: 2661-2805, 2899-2957", "src/tup/db.c: 993-1139, 1220, 1387-1498", "src/tup/variant.c: 171-182"]}
{"id": "C80", "title": "A command that lists a directory finds the names of exactly what it sees there", "statement": "After any sequence of the operations for which the command's file system is a private one on top of the tree (C22), listing a directory succeeds and gives the names of exactly those things directly in it that the command would find by name: the files and directories it has made and not removed, and what was there before it began. A directory that the command has made shows only what the command has made in it. Each name is given once unless the command has replaced a file that was there before. A list changes nothing that the command sees, and it is recorded as a read access of that directory, except for directories that the command has made, and as nothing else.", "quantifier": "all trees, all sequences of usual operations of any length, all directories, all names except ., .. and .tup", "why_tests_cant": "Three lists are merged by comparing prefixes of paths; whether a name is missing, doubled or comes from a wrong directory depends on the names and on everything the command did before, and tests list one or two directories.", "anchors": ["src/tup/server/fuse_fs.c: 541-573, 587-722"]}
{"id": "C81", "title": "A script run by a Tupfile sees the directories that the database knows, and its output is the rules it prints", "statement": "A script that a Tupfile runs and that lists a directory of the project is given exactly the names of the files, generated files and directories that the database knows there (in a variant: there or in the source directory), each once, without ghosts, tup's own virtual directories and files that lost their rule: for the directory of the Tupfile as of the start of the script, and for a preloaded directory as of the end of the last preload that names it, after the Tupfile there was parsed. Any other directory of the project is refused, and then the Tupfile is not accepted whatever the script does. Directories outside are given as they are. A script is accepted exactly if it ends well and its output (before the first byte 0) consists of ended lines that are empty, comments, or begin with a colon and are accepted as rules, in that order. A Tupfile that is accepted depends on every directory it preloads (other than its own, and other than paths that look like a group) and on every environment variable exported before a script is run.", "quantifier": "all databases, all Tupfiles as sequences of preloads, scripts, exports and other lines, all scripts as programs that decide from the answers what to list next and what to print", "why_tests_cant": "The lists are made at different times and replace each other by path; what is outdated or missing depends on the order of the lines and on what the rules between them do; a test runs one script with one preload.", "anchors": ["src/tup/parser.c: 849-1085, 2576-2638", "src/tup/server/fuse_fs.c: 557-619", "src/tup/server/fuse_server.c: 599-653, 821-877", "src/tup/variant.c: 171-193"]}
{"id": "C82", "title": "tup todo shows what is left to do", "statement": "If no file is named, `tup todo` shows, if it ends without an error: everything behind the tup.config files to be read, if there is something; else the directories behind those to be parsed; else the commands behind the modified nodes together with their number; each once, and a command after those it depends on; and that everything is up to date exactly if all three are empty. It leaves the modify list as it was. Every command that an update would have in its graph is among those shown, and without transient commands nothing else is. If files are named, the commands shown are those that something named depends on, and the others are only counted - but they are put into the modify list. Without circular dependencies it can get to its end.", "quantifier": "all databases, all sets of named files, all executions of the executor with this work function", "why_tests_cant": "The claim compares two graphs that are built by different functions from the same database; whether they agree depends on the combination of modified, transient and left over nodes.", "anchors": ["src/tup/updater.c: 535-580, 1691-1791, 2260-2268", "src/tup/graph.c: 288-322, 537-617, 772-908", "src/tup/create_name_file.c: 428-470"]}
{"id": "C83", "title": "Directories that are there only for outputs come and go with them", "statement": "The directory of an output is found or made as a generated directory along the path of the output, unless the path leads out of the project or goes through something that is not a directory; nothing but missing directories on the way changes. After parsing, exactly those directories of the user become generated that hold no file of the user at any depth, each with something in it that another Tupfile makes (or a directory), and whose innermost ones were parsed; the .gitignore above each is written anew, its own is deleted if tup made it, its links are dropped, and nothing is scheduled. A new file of the user turns the directory it is in and all above it back into directories of the user, and no others. At the end of a transaction the generated directories that nothing needs are removed from the disk, inner ones first, without an error, and everything else stays; something unknown in such a directory is never deleted, the transaction fails instead.", "quantifier": "all databases whose directories form a tree, all sets of parsed directories, all paths of outputs, all contents of the disk that agree with the database", "why_tests_cant": "The conversion goes upwards through a set that changes while it is worked on, and the removal interleaves with the removal of other entries; the order is that of the ids. Whether a directory of the user can vanish depends on all combinations of what is in it.", "anchors": ["src/tup/create_name_file.c: 44-57, 72-95, 561-660", "src/tup/db.c: 1500-1526, 3712-3721, 3942-4093, 7049-7054, 7080-7148", "src/tup/entry.c: 353-391", "src/tup/updater.c: 1550-1592"]}
{"id": "C84", "title": "Open files of a command behave like those of a private file system, and the tree is left alone", "statement": "Whatever sequence of creating, opening, reading, writing, closing, removing, renaming, truncating files and changing their attributes a command does through the file system that tup puts between it and the tree, the files of the tree are not changed, except those that are hidden, excluded, or named like those that libfuse hides. As long as the command does not open foreign files for writing, rename foreign files over its own or replace foreign files that are open, it gets the answers of a private file system on top of the tree: files keep their content when they are renamed or removed while they are open, and only its own files can be changed. That tup keeps only a limited number of descriptors is not noticed, unless a file that was opened beyond the limit is removed or replaced, loses its permissions, or is an excluded file that is written. The number of open files is counted exactly, and the end of a command is not handled while one of them is open.", "quantifier": "all sequences of operations on any number of names and open files, all trees, all limits", "why_tests_cant": "The descriptors beyond the limit are opened anew by name at each access; whether that finds the right file depends on all that happened to the name since it was opened. The limit is some hundred files, more than the tests open.", "anchors": ["src/tup/server/fuse_fs.c: 48-66, 165-241, 725-800, 856-890, 957-1394, 1456-1471", "src/tup/server/fuse_server.c: 433-462", "src/tup/entry.c: 812-836"]}
{"id": "C85", "title": "Rules of a Tupfile.lua do what the same rules do in a Tupfile", "statement": "A call of tup.rule or tup.foreach_rule is accepted only if it has one of four forms: the command alone, the command and a table of outputs, a table of inputs and the command, or inputs, command and outputs, where a string stands for a table with it alone. It then defines the rule that its arguments stand for: the strings of the tables are the inputs and outputs, the fields extra_inputs and extra_outputs the extra ones, and bin the bin, with or without braces. This rule has the same commands, inputs, order-only inputs, outputs and bins as the rule written in a Tupfile, or both fail, as long as its paths and its command can be written there as they are. Of the tables that the script has, only those in the arguments are changed, which lose the fields extra_inputs, extra_outputs and bin; a second rule with the same tables therefore has none of them. The two kinds of files differ in this: an empty list of inputs, as tup.glob gives for a pattern that nothing matches, makes a command without inputs where a Tupfile has none; a string with a blank is one path; a macro has no arguments; and a rule cannot take the bin that it is the first to fill.", "quantifier": "all rules with any number of inputs and outputs, all tables that the script may share between calls, all states of the parser, all macros", "why_tests_cant": "The two languages have separate front ends, and the tests compare them only on a few rules. That tables are changed shows only when a script uses them again.", "anchors": ["src/luabuiltin/builtin.lua: 63-164", "src/tup/luaparser.c: 82-105, 158-297", "src/tup/parser.c: 1487-1554"]}
{"id": "C86", "title": "Variables of a Tupfile.lua are its own, and += appends", "statement": "A Tupfile.lua starts without variables of its own. What it reads from a variable is the value that it has assigned last, however many other Tupfiles are parsed in the meantime, at any depth, and whatever these assign; a variable that it has not assigned is the one that Lua or tup defines, or nil. If the Tupfiles before it and those in its middle only read and assign variables, it reads what it reads when it is the only one. Three things leak to later Tupfiles: rawset on _G, tup.import, which gives the importing Tupfile a table of words and all later ones the text, and tup.ext, with the variable match. The operator += makes a list of the elements of the left side followed by those of the right side, where nil has no element and a string is one; it changes the left side in place if that is a table, together with all other names of the table, and no other table; any other kind of value is an error.", "quantifier": "all sequences of Tupfiles with any nesting, all scripts of reads, assignments, rawset, imports and calls of tup.ext, all heaps and values", "why_tests_cant": "Which Tupfile is parsed in the middle of which other one depends on the order of updates; a leak shows only in some orders.", "anchors": ["src/luabuiltin/builtin.lua: 57-61, 157-240", "src/tup/luaparser.c: 296-310, 564-586, 830-950", "src/tup/parser.c: 277-297, 1087-1140"]}
{"id": "C87", "title": "tup.file, tup.base and tup.ext split a path", "statement": "tup.file gives what is behind the last slash or backslash of a path. If this name is a stem, a dot and then only letters and digits, tup.base gives the stem and tup.ext what is behind the dot; otherwise tup.base gives the whole name and tup.ext is empty. For a file of the project these are what %b, %B and %e stand for in a Tupfile, as long as the path has no backslash, the extension has letters and digits only and the only dot is not at the start of the name; in the other cases they differ.", "quantifier": "all paths", "why_tests_cant": "The functions are patterns over all strings, with greedy repetitions and backtracking; tests have a few names.", "anchors": ["src/luabuiltin/builtin.lua: 47-61", "src/lua/lstrlib.c: 360-670, 770-820, 940-982"]}
{"id": "C88", "title": "The project of a directory is found, and made by tup init or a Tupfile.ini", "statement": "Started in a directory, tup takes as the project the innermost directory from there upwards that has a directory .tup, and goes there; the path of the project and the path from there to the starting directory, '.' if they are the same, are the right ones. The root directory counts only if tup is started in it. If there is none tup says so; the search always ends. tup init without a directory makes .tup in the current directory if there is no project, and otherwise changes nothing; with a relative path of names it makes the missing directories, and .tup in the last one; with an absolute path it always fails; and it looks for a project from the current directory, so that it can make a project inside of another. --no-sync turns off synchronisation, --force makes a project inside of another but not where there is one; two directories are an error. Before every command that needs a project: if there is none and a directory upwards has a Tupfile.ini, .tup is made in the topmost one of these, and the command then finds it; otherwise nothing changes.", "quantifier": "all directories and file systems, with .tup and Tupfile.ini anywhere", "why_tests_cant": "The offsets in the path are computed by hand, byte by byte; tests run at one place in the file system, never near the root.", "anchors": ["src/tup/config.c: 48-136", "src/tup/option.c: 121-230", "src/tup/init.c: 145-263", "src/tup/tup/main.c: 189-270"]}
{"id": "C89", "title": "compile_commands.json is the JSON of the commands of a variant", "statement": "tup compiledb writes one file for each enabled variant. Read as JSON, the file is an array with one object for each file that is a sticky input of a command of the variant with flag j, in the order of the commands and inputs, and the object has the directory, command and path of it — if no strings have control characters, the paths need no escapes, and the file has no objects or is the first to have any. A later file with objects is not JSON, as the missing comma is remembered for the whole run; and a path with a quote is written as it is, which gives no JSON or other JSON. tup commandline prints the same for its arguments, with a command that has the file as a sticky input, one that has the file's name in it if there is one.", "quantifier": "all commands, inputs, variants and arguments", "why_tests_cant": "Tests run it with one variant and plain names and look for a line; nothing reads the file as JSON.", "anchors": ["src/tup/db.c: 7493-7603", "src/tup/tup/main.c: 667-725", "src/tup/entry.c: 797-810"]}
{"id": "C90", "title": "A link made by !tup_ln or !tup_preserve leads to the input", "statement": "With one input and one output the macros !tup_ln and !tup_preserve give a command that is not run but makes a symbolic link. If neither path has white space, the link is made at the path of the output; it is relative, and followed from the directory of the output it leads to where the path of the input leads from the source directory of the command, in the source tree and in every variant. For an absolute input path the link is relative as well and leads into the project, not to the input; an input path with white space is cut at it, and the link leads to the first word and is made at the rest; several outputs are an error; and a command with a single word, or without outputs, has undefined behaviour.", "quantifier": "all trees, directories, and paths of inputs and outputs", "why_tests_cant": "Tests make links between a few directories, with plain names; a wrong number of parent steps shows only for some pairs of directories.", "anchors": ["src/tup/updater.c: 2882-2923, 3025-3031", "src/tup/server/symlink.c: 31-53", "src/tup/parser.c: 521-541"]}
{"id": "C91", "title": "A directory depends on what was read while it was parsed", "statement": "When a Tupfile has been parsed without errors, the recorded inputs of its directory are exactly the files that were read or looked for while it was parsed, the variables of tup.config that were used, and what the parser itself names. A name that was looked for in vain gets a placeholder, so that the directory is parsed again when such a file appears, as it is when one of the files changes. Not recorded are directories, files called .gitignore and files with a time of 0 seconds. The inputs of other directories and commands do not change, and placeholders that are no inputs any more are examined for removal. The only errors are: a file was written that tup does not know and that was not looked for before, or an input is a generated file and was not an input already.", "quantifier": "all tables of nodes and links, all lists of read, used and written paths", "why_tests_cant": "Tests have one or two included files; which dependencies are recorded depends on all nodes and links that are there already, and a missing one shows only when that file changes later.", "anchors": ["src/tup/file.c: 334-401, 495-546", "src/tup/db.c: 6448-6498", "src/tup/create_name_file.c: 561-662, 712-735", "src/tup/parser.c: 339-357"]}
{"id": "C92", "title": "A file that is read through a symbolic link is recorded under its own name too", "statement": "When the parser or a command that reports its accesses reads a path that names a symbolic link, tup records this path and one more, made from the text of the link, and the second path opens the same file as the first, whatever directories or links are on the way. If the second path names a file that is not a link, it is the file that was read. A path that names no link is recorded alone. Two exceptions: only one link is followed, so that with a link to a link the name of the file is not recorded; and the recorded path is simplified by its text, so that .. behind a linked directory names another file.", "quantifier": "all file systems with symbolic links (also cyclic ones), all paths", "why_tests_cant": "Tests have a link or two in one directory; the space of links, directories and texts with .. is unbounded, and a wrong name shows only when the file changes later.", "anchors": ["src/tup/file.c: 94-144, 174-230"]}
{"id": "C93", "title": "tup graph prints each node and each edge, and what --combine makes of them", "statement": "tup graph prints one line for each node of the graph but the root, in the order of the graph and with its name in quotes such that the text in quotes reads as the name, and one line for each edge. Without --dirs exactly the directories, the Tupfiles and the generated .gitignore files are left out, with their edges. With --combine, of all nodes with the same hash exactly one is left, one with the smallest name, with the number of nodes it stands for; and there is an edge between two nodes that are left if and only if there was one between nodes of these commands and these files. The hash of a command is undefined behaviour exactly when the first word of it has more than 12 characters (for ASCII names).", "quantifier": "all graphs, all names and hashes, both flags", "why_tests_cant": "Tests look at graphs of a few nodes; which nodes are merged depends on the order of ids, names and hashes, and the invariant about moved edges is about any number of merges.", "anchors": ["src/tup/graph.c: 953-1391"]}
{"id": "C94", "title": "The progress bar stays in its buffer and in the line, and is full at the end", "statement": "Whatever jobs of a phase are done or skipped, in any order, the percentage shown is the part of the time (or of the number of jobs, if a time is not known) and is between 0 and 100; drawing the bar writes and reads only in its buffer, the line is shorter than the screen, so that it is cleared in full, the fields always stand at the same place in full, and when all jobs are done the bar is full. The time that is left is given rounded up, in the largest of the units seconds, minutes and hours of which there is at least one. This needs that the times of the jobs are not negative and make at most 21474836 ms: with more the multiplication overflows, and with a negative time (when the clock was set back) the bar is written beyond its buffer. c94_time: the time left is rounded up, in the largest unit.", "quantifier": "all numbers and times of jobs, all orders of events, all widths of the screen, all values of the clock", "why_tests_cant": "The tests run without a terminal, so that no bar is drawn at all; phases of six hours cannot be tested.", "anchors": ["src/tup/progress.c: 34-380", "src/tup/graph.c: 306-311"]}
{"id": "C95", "title": "The debug logs with number k are those of the k-th last update", "statement": "After any number of updates with the debug log on, starting in a project without logs, .tup/log/debug.log.k, create.dot.k and update.dot.k are, for k below 20, what the k-th last update wrote (a graph is missing if that update did not come to it), and there are no files with higher numbers; rotating touches no other file. If a file cannot be moved this fails: the log is moved, none is written, and numbers no longer belong together. A graph is saved in the project if the path of the project has no percent sign; otherwise the path is taken as a format: the graph goes elsewhere or the behaviour is undefined.", "quantifier": "all sequences of updates, all sets of graphs that an update comes to, all contents, all project paths", "why_tests_cant": "A test makes a few updates, not more than the 20 that are kept, and its project has a fixed path.", "anchors": ["src/tup/logging.c: 41-182", "src/tup/graph.c: 930-952"]}
{"id": "C96", "title": "tup variant makes a directory whose tup.config is the file that was given", "statement": "If `tup variant` succeeds, then for each file given, by a path relative to the directory in which the command runs, there is a directory build-X at the top of the project, where X is the name of the file up to its first dot, and opening build-X/tup.config opens exactly that file. The directories are different, all files that were there are still there, and nothing but the directories and links is new. A name that is not there yet is always accepted (if nothing is too long), a directory that is there is taken only if it has no files but hidden ones, so that a second file with the same X is refused. Not so for absolute paths, which are taken relative to the directory of the command, and if build-X is a symbolic link to an empty directory elsewhere: then the link leads nowhere although the command succeeds.", "quantifier": "all file systems with symbolic links, all directories of the command, all lists of paths", "why_tests_cant": "The tests make a few variants with short relative paths in the top directory; none uses an absolute path or an existing link.", "anchors": ["src/tup/tup/main.c: 790-910"]}
{"id": "C97", "title": "An update after a change of the rules gives the same files as a new project with the new rules", "statement": "Take any history of a project: users edit files, change, add and remove rules, updates succeed, fail or are killed. When after that an update succeeds, every output of the present rules has exactly the content its command would write now; and if the declared dependencies are not circular, all files are the same as after a first update of a new project that has the present rules and the source files only (outputs of removed rules are deleted, except those the user has changed, which become source files). A source file is never deleted or overwritten by a change of the rules. A command that was there before with the same string, flags and outputs is not run because of the change of the rules, unless it no longer lists an input it used, or such an input became or ceased to be an output. The property needs, besides that of C35, that ^o is not given to the writer of a file whose writer without ^o is still to be run after a failure: otherwise it is false (commands using the file are not run though it has changed).", "quantifier": "all sequences of rule sets, edits, scans, failed, killed and successful updates, all behaviours of commands that depend only on the files they read", "why_tests_cant": "The tests change one rule at a time in small projects and look at a few files; they cannot compare all histories with a new build.", "anchors": ["src/tup/parser.c: 3160-3206, 3573-3680, 501-521", "src/tup/db.c: 999-1060, 5910-6070, 6330-6434", "src/tup/updater.c: 679-750, 2114-2218, 2925-3080", "src/tup/create_name_file.c: 319-500"]}
{"id": "C98", "title": "With monitor.autoupdate every change is followed by an update, and tup flush waits for it", "statement": "While the file monitor runs with autoupdate turned on: when tup flush says 'Flushed', every change made before it was called that sets a flag in the database has been put into the database, and an update that got its locks after that has ended. When no tup process runs and the monitor has handled all events, this holds for every change made so far, and every tup flush has ended. From every situation the monitor and the running processes can go on, with nobody else doing anything, until that is so. An update is started only if a change that sets a flag was put into the database after the last start. The monitor waits for the process of an update at most once and only after it has ended, and does not forget the one started last. Two things are false: of three updates started before the first has ended the second is never waited for (it stays a zombie), and after an update that could not be started no tup flush ends until a file is changed.", "quantifier": "all interleavings of file changes, monitor steps, timeouts, calls of tup flush and of other commands, autoupdates and the waiting thread; any number of processes", "why_tests_cant": "The tests make one change and call tup flush once; races between the monitor, an update that has just been started and several flushes cannot be brought about at will.", "anchors": ["src/tup/monitor/inotify.c: 336-344, 489-515, 524-673, 791-962", "src/tup/tup/main.c: 309-311, 360-370, 1269-1297", "src/tup/lock.c: 82-117"]}
{"id": "C99", "title": "The directories and nodes that a Tupfile names lead to the right place", "statement": "$(TUP_CWD) leads from the directory that is parsed to the directory of the file that is read, and in a variant as well from the one source directory to the other, so that it can be used in commands, which run in the source directory. $(TUP_VARIANT_OUTPUTDIR) leads from the directory where the commands run to the directory of their outputs and is '.' without a variant. A variable to which a file assigns $(TUP_VARIANTDIR), and a node variable, lead wherever they are used from the source directory of the file that uses them to the directory in the variant or to the node; in places for inputs and outputs to its source directory. Only files of the sources and directories can be values of node variables. %d is the name of the directory that is parsed. tup.getcwd, tup.getvariantdir and tup.getvariantoutputdir give what the variables give, tup.getdirectory what %d gives if no file of another directory is included, and tup.getrelativedir leads from the directory that is named to the directory that is parsed. Three things one would expect are false: in a file of another directory that is included a node variable in a command does not lead to the node from where the command runs; the text of tup.nodevariable does not do so in a variant; %d at the top of a variant is the name of the variant.", "quantifier": "all trees of directories with and without a variant, all nodes, all places of the project, all texts around the reference, all pairs of files one of which sets a variable that the other uses", "why_tests_cant": "The tests use these variables in a few trees of depth one or two; a path can be right by accident at one depth.", "anchors": ["src/tup/parser.c: 1372-1465, 1786-1817, 4014-4041, 4165-4209, 4244-4326", "src/tup/luaparser.c: 312-418, 661-728", "src/tup/variant.c: 171-193"]}
{"id": "C100", "title": "tup graph shows what depends on the given nodes", "statement": "The graph that tup graph prints for the nodes that are named has a line for exactly these nodes, for all that depends on them over links (and from group to group), and, for a directory, for all that is in it and what depends on that, but not for the variables in tup.config. Ghosts are followed only with --ghosts, environment variables only with --env, links to directories only with --dirs. Every node is there once. It has a line for exactly the links of the database between these nodes, once per link; with --stickies in addition one for each sticky input of a command of the graph that is itself in the graph. Without --dirs directories, Tupfiles and generated .gitignore files are left out with their links. Without names it begins with the nodes that the next update has to look at. Options count wherever they stand on the command line; everything else before --prune must be the name of a node. The graph is built in as many rounds as there are nodes, also if links go in a circle. It is false that the graph without names shows what the next update will do: directories that are to be parsed are left out unless there is --dirs.", "quantifier": "all databases, with links in circles too, all options and command lines", "why_tests_cant": "The tests compare the printed graph of a few projects of a few nodes.", "anchors": ["src/tup/tup/main.c: 503-665", "src/tup/graph.c: 222-256, 278-286, 393-431, 619-642", "src/tup/db.c: 1226-1385, 4361-4446, 4548-4615"]}
{"id": "C101", "title": "The variables of tup.config that a command asks for become its inputs", "statement": "When a program that a command runs in a directory of the project asks for variables of tup.config through the client library (as tup varsed does for each name between two at signs), exactly the names it asks for are noted. When the inputs of the command are accepted, each of them is an input of the command, as a ghost if tup.config does not have it, and no other variable is, unless a file that was read leads to it. So a change of a variable that was asked for makes the command run again, and as long as the variables that are inputs have the same values the program puts out the same. The empty name notes nothing. A name of 4090 bytes or more is not noted, of a name with a slash only the part before the slash is, and nothing is noted for a program in a directory outside of the project. A file of the project whose path contains @tup@ cannot be read by any command. Every other file is shown as what it is, a directory, something else or not there, and is noted as read.", "quantifier": "all programs that ask for variables one after the other, depending on the values so far; all names, directories, databases and texts", "why_tests_cant": "The tests ask for one or two variables with ordinary names from one directory, and never compare the output with the variables that are inputs.", "anchors": ["src/tup/send_event.c: 25-37", "src/tup/vardict.c: 86-142", "src/tup/varsed.c: 86-133", "src/tup/server/fuse_fs.c: 319-435", "src/tup/file.c: 842-876"]}
{"id": "C102", "title": "What a Tupfile sees of tup.config, and that it is parsed again when that changes", "statement": "The value that a Tupfile gets for a variable of tup.config (with @(VAR), $(CONFIG_VAR) or tup.getconfig) is what tup.config says; if tup.config does not have it, TUP_PLATFORM and TUP_ARCH stand for the platform and the architecture, and all others are empty. ifdef, with or without CONFIG_ before the name, says whether tup.config has the variable. The answers do not depend on what other Tupfiles asked before or on the copies that tup keeps. A question always has an answer and changes nothing, but for a ghost for a name that has no row. All variables asked for, and no other, go to the inputs of the directory, also those that are not set and those that only ifdef asks for. So, if a new tup.config does not cause the directory to be parsed, parsing it would lead to the same rules. For TUP_PLATFORM and TUP_ARCH ifdef is false unless tup.config has them, though they have a value.", "quantifier": "all Tupfiles, seen as trees of questions in which what comes next depends on the answers so far; all databases, all interleavings with the questions of other Tupfiles and with other changes of the database that leave the variables alone; all old and new contents of tup.config", "why_tests_cant": "The tests use a few variables in one or two Tupfiles; an input that is missed shows only if exactly that variable changes, and a wrong copy only if Tupfiles are parsed in a certain order.", "anchors": ["src/tup/db.c: 4785-4880", "src/tup/parser.c: 752-771", "src/tup/parser.c: 4267-4305", "src/tup/luaparser.c: 420-446"]}
{"id": "C103", "title": "A rule that is parsed schedules its command iff it is not what it was, and its inputs become those of the command", "statement": "When a rule is accepted there is a command with its string in its directory. The command is to be run if it was to be run before, or if one of these holds, and in no other case: there was no command with that string (it is new, or a command that had one of the outputs gets the string); its flags differ; its outputs (files, groups, exclusions, each with directory and name) are not those that the command had when the rule was reached; a declared input is gone that the command used or that is a group; or it has a variable of the environment that it did not have. So a rule that has not changed schedules nothing, and one that only got further inputs does not either. The declared inputs of the command are then the files, generated files, variables and groups among the inputs; the generated files, variables and groups (not the files) among the order-only inputs and the environment; the groups that are declared inputs of a command which makes one of these; and nothing else.", "quantifier": "all rules, all databases that come from any history of updates, rules, changes of files and runs of commands", "why_tests_cant": "A test compares a few pairs of rules; whether a difference is overlooked, or a rule that has not changed is taken to be different, depends on the combination of all lists with all that is stored.", "anchors": ["src/tup/parser.c: 3522-3726", "src/tup/parser.c: 3122-3159", "src/tup/db.c: 5747-6212", "src/tup/db.c: 6596-6602"]}
{"id": "C104", "title": "The monitor takes an event to be about the directory for which its watch was set", "statement": "The monitor keeps a table of its watches. In whatever order watches are set, come to their end and directories are removed, an event of a watch is taken to be about a directory only if the watch was set for that directory last and has not come to its end since; and it is taken to be about it if the directory has not been removed since either. If no directory is given a second watch, and if no watch is set and no directory removed while the end of a watch waits to be handled, then the table is what it should be: the watch of a removed directory is taken away; events of a watch that has ended are skipped until its end is handled, and the watch is unknown then; and when events were lost all watches can be taken away. Without these conditions it is not: after watches for directories 1, 2 and 3, if the end of that of directory 2 waits, directory 1 is not found when it is removed and its watch stays; and with a second watch for a directory, pointers that were never set are used when that ends.", "quantifier": "all histories of watches, all ways to balance the trees", "why_tests_cant": "Whether a directory is found depends on the shape of the tree at the time when a number in it is changed, thus on the whole history of watches and on how events fall into the reads of the monitor.", "anchors": ["src/tup/dircache.c: 26-79", "src/tup/tupid_tree.c: 26-47", "src/tup/monitor/inotify.c: 287-298", "src/tup/monitor/inotify.c: 711-731", "src/tup/monitor/inotify.c: 752-761", "src/tup/monitor/inotify.c: 1094-1135"]}
{"id": "C105", "title": "A command whose reported inputs are as they were does what it did", "statement": "Consider a command whose next request to the file system depends only on the answers it has had. Let it run in two trees which have the same (content, absence, list of a directory) at every name that was reported as read in the first run and at every name that the command itself removed or renamed in it. Then in both runs it makes the same requests and gets the same answers, it ends in both or in none, the same names are reported as read and as written, and it leaves the same content in every file. In particular, if it removes and renames nothing, what it does depends on the names reported as read and on nothing else. No name that was looked at is missing from the report, unless the command had made a directory there or removed or renamed the name. Such names are dropped from the report even if what the tree had there mattered: a command can read a file, put its own in its place and remove that, and the file is not reported.", "quantifier": "all commands (any function from answers to requests), all trees, any number of requests", "why_tests_cant": "A test compares a few runs; that a difference anywhere else in the tree cannot have an effect is a statement about all trees and all programs.", "anchors": ["src/tup/server/fuse_fs.c: 344-539", "src/tup/server/fuse_fs.c: 587-722", "src/tup/server/fuse_fs.c: 856-1039", "src/tup/file.c: 197-230", "src/tup/file.c: 573-643"]}
{"id": "C106", "title": "tup.glob lists exactly the matching files, and they are good as inputs", "statement": "In a Tupfile.lua, tup.glob with a path fails only if the directory of the pattern does not exist. It returns the paths of exactly the files and generated files of that directory, and in a variant also of the directory of the source tree, whose names match the pattern and that are not scheduled to be deleted, one path for each such file. A path in the list leads to the same directory as the pattern does, and to that name (if the pattern has a directory in front, the path has two slashes after it). A name of the list, given to a rule as an input, stands for the file that it was listed for, and the files of the list are those that the pattern stands for in the inputs of a rule, provided that none of the files is made by the Tupfile of another directory, and that the name is not a pattern itself, does not begin with '<' and, in a variant, is not that of something else in the variant. Without these provisos it is false: the list has files of other Tupfiles, which a rule refuses, and a name with a bracket in it is taken for a pattern. tup.glob of an exclusion (^regex) uses a null pointer.", "quantifier": "all databases, all patterns and names, with and without variants", "why_tests_cant": "A test has a few files in a directory; that nothing else is in the list, and that every name in it finds the right file, is a statement about all databases.", "anchors": ["src/tup/luaparser.c: 448-548", "src/tup/parser.c: 2289-2363", "src/tup/parser.c: 2479-2541", "src/tup/db.c: 1387-1497"]}
{"id": "C107", "title": "What a command prints is shown whole, on the right stream, and not mixed with what others print", "statement": "While commands run at the same time, what they print is collected and shown when they end. Whatever the order in which the threads of the update go on, the part of each stream that belongs to a command is in one piece, complete once the threads are done, and no thread waits for ever to print. For a command that succeeds, stdout has the line for the command, the expanded command if asked for, and byte for byte what the command printed, and stderr has the messages of tup, if any. For a command that fails, nothing goes to stdout, and stderr has the line for the command, the expanded command, what it printed and the messages of tup, the first of which tells the exit status or the signal. In quiet mode the line is missing only for a command that has printed nothing and about which there are no messages, which is never so for a command with a status other than 0. What is shown is byte for byte what was printed if and only if that has no byte 0; after a byte 0 the rest of the 1024 bytes is lost. If the previous outputs of a ^o command cannot be put back or compared, nothing at all is shown for it.", "quantifier": "all commands with any output and messages, any number of threads, all interleavings", "why_tests_cant": "A test sees a few interleavings and short outputs; that the text is never torn or cut is a statement about all of them.", "anchors": ["src/tup/updater.c: 2595-2708", "src/tup/updater.c: 3052-3060", "src/tup/config.c: 155-196", "src/tup/progress.c: 193-249"]}
{"id": "C108", "title": "What the main thread hands to a worker is done once, and its result comes back", "statement": "During an update the main thread hands nodes (directories to parse, commands to run, files to create) to a number of threads and gets their results back. However the threads take turns, and even if waiting for a signal returns for no reason: each thread works on the nodes that it was handed, in that order and each once; what the main thread gets back is these nodes, in that order and each once, with the result of the work on that node and not of another one; and at most one per thread is missing at any time. When the main thread counts no thread as active, nothing is missing. No node is handed over without a free thread, and no thread starts to work without a node. No signal is lost, there is no deadlock, the threads do not spin, and once they are told to quit all of them end after a bounded number of steps and then the main thread ends. If a signal (Ctrl-C) comes at the wrong moment, a node that was handed over last may be left undone.", "quantifier": "all numbers of threads, all sequences of nodes and results, all interleavings of the threads, all spurious wake-ups", "why_tests_cant": "A lost signal or a result that is mixed up shows in one interleaving out of very many, and a test cannot choose the interleaving.", "anchors": ["src/tup/updater.c: 121-137", "src/tup/updater.c: 1867-2040", "src/tup/updater.c: 2042-2082"]}
{"id": "C109", "title": "What the pid file says about the monitor", "statement": "The monitor keeps its process id in a file that it, a monitor that is ending, tup and tup stop write and read at the same time, each with a lock. Whatever the interleaving: a process that asks for the id of the monitor gets -1 (no monitor), a number that was in the file or that some process wrote as a whole, or 0; never a number that is torn or mixed from two. When nobody is writing, the file has exactly the number that was written last, and a process that asks then gets it. The id of a process that no longer exists is not taken for a monitor, and is replaced by -1. Nobody waits for ever for the lock. So an update only skips the scan of the project if it was told to, or a monitor that was alive had written its id, or 0 was read; and a signal to stop the monitor only goes to such a process. Two things can go wrong: 0 is read when one process empties the file between the write and the cut of another one (then nothing is scanned, and tup stop signals its own process group), and a monitor that is ending may overwrite the id of the one that replaces it.", "quantifier": "all numbers of processes, all sequences of their calls, all interleavings of their system calls, all ids", "why_tests_cant": "The windows between the system calls are short; a test hits hardly any of the interleavings.", "anchors": ["src/tup/monitor/inotify.c: 354-448", "src/tup/monitor/inotify.c: 680-709", "src/tup/updater.c: 611-635"]}
{"id": "C110", "title": "No entry is given back while something points to it", "statement": "Entries of the database that are in memory are pointed to by sets and lists, and an entry counts the pointers to it. Whatever sequence of operations the program carries out (make an entry, put it in a set or list, take it out, empty a set or list, remove an entry), errors included: the count of every entry in memory is the number of pointers to it in all sets and lists; no set, list, index or link to a parent points to an entry that was given back; no operation uses memory that was given back, unless the caller hands it such a pointer. Removing an entry takes it out of the index, and gives its memory back if and only if nothing points to it apart from the set of ghosts and its own sets; otherwise it is an error and the memory stays. An entry that has others in it is not removed. Dropping all entries ends, although directories only go after what is in them, and gives the memory of all of them back if and only if no set or list of the program points to one; otherwise it is an error. A list keeps the order in which entries were put in at its two ends, and a set has an entry once.", "quantifier": "all sequences of operations, all entries, sets and lists, all trees of directories", "why_tests_cant": "A pointer to memory that was given back often still finds the old contents, as the memory comes from a pool; so a wrong count is not seen in a test.", "anchors": ["src/tup/entry.c: 120-167", "src/tup/entry.c: 409-417", "src/tup/entry.c: 594-629", "src/tup/tent_tree.c: 34-132", "src/tup/tent_list.c: 28-70"]}
{"id": "C111", "title": "A command sees the project through tup's file system from its start", "statement": "Whenever the process of a command gets as far as to execute it, whichever of the calls before that could have failed: it is in its directory of the project, and every file that it reaches from there goes through tup's file system under the path of the real file, so the access is noticed. With a mount namespace or a chroot that holds for absolute paths into the project too; a command with ^c either has that or is not run; with updater.full_deps it holds for all paths but those in /dev and /proc, which are the system's. Otherwise paths outside of the project, and without namespaces also absolute paths into it, lead to the real files. Standard output and standard error are the files made for them (or one for both), and no other descriptor is left open or changed; with streaming none is changed. This needs that standard output and error were open, and, without namespaces, that the change to the job's directory succeeded: its failure is not noticed, and the command may then be run elsewhere, unseen; and with a closed standard output the command has none.", "quantifier": "all paths of projects, directories and files (not in /dev and /proc), all settings, all patterns of calls that fail", "why_tests_cant": "A test has one kernel with one set of abilities and one place of the project, and cannot make single calls of mount, chroot or chdir fail.", "anchors": ["src/tup/server/master_fork.c: 375-539", "src/tup/server/fuse_server.c: 464-501"]}
{"id": "C112", "title": "The times shown for Tupfiles add up, and the time recorded for a command is within bounds", "statement": "When a Tupfile is parsed, others that it depends on are parsed meanwhile, and those may do the same. The time shown for each is its own: its whole time without the whole times of those parsed meanwhile. However deep that goes, the times shown for a Tupfile and all below it make exactly the time that passed, to the microsecond; if the clock did not go back none is negative. Taking a span of time off another one is exact, and leaves a time that is well-formed. The milliseconds recorded for a command are less than half a millisecond too few and less than one and a half too many, and are not negative if the clock did not go back. They are the nearest number if the fraction of the second at the end is not below that at the start; otherwise they are not: a command that took one millisecond can be recorded with two.", "quantifier": "all times of the clock, all trees of Tupfiles that are parsed within each other", "why_tests_cant": "The times differ from run to run, so tests do not look at them; the cases at the turn of a second are rare.", "anchors": ["src/tup/timespan.c: 24-58", "src/tup/parser.c: 172-173", "src/tup/parser.c: 369-379", "src/tup/parser.c: 2610-2630", "src/tup/updater.c: 2625-2627"]}
{"id": "C113", "title": "The process that runs commands is started with namespaces if possible, and at most one is left", "statement": "Before anything else tup forks the process that will run all commands. At most two are forked for that. If that succeeds, exactly one of them goes on to run commands, and another one forked before has exited. All calls that the last attempt needed in any case have then succeeded, among them the start of the thread that waits for commands to end. It uses namespaces only if TUP_NO_NAMESPACING is not set; if full dependencies are to be tracked it always uses them. On a system where a user namespace can be set up, and for root, it does use them, at the first attempt. Where setgroups cannot be denied a second attempt is made without; where there are no user namespaces, or with the variable, the first one does without; these succeed just if full dependencies are not tracked, for root as well. If it fails, no process that runs commands is left, unless tup itself could not close or read its end of the socket or start its thread. Neither end of the socket is descriptor 0, whatever was open when tup was started. (When the ids cannot be mapped, or full dependencies are not possible, the forked process does not exit but returns with the error to the caller, as its parent does.) Success means that all calls of the last attempt succeeded.", "quantifier": "all outcomes of the system calls in all attempts, all settings, all sets of open descriptors", "why_tests_cant": "Tests run on one kernel with one policy; most of these branches need a system that denies some of the calls.", "anchors": ["src/tup/server/master_fork.c: 78-140", "src/tup/server/master_fork.c: 150-261", "src/tup/init.c: 53-55"]}
{"id": "C114", "title": "The files that tup makes in .tup/tmp while it runs commands have different names", "statement": "While commands run, tup keeps files in .tup/tmp: what commands have written, named by a number in hexadecimal; what a command has printed, its error messages, its dependencies, the copies of outputs and the lists of the files of groups, each named by a word and a number. No two of them have the same name, neither two of one kind with different numbers nor two of different kinds, whatever the numbers are. Each name fits the buffer it is made in, for all numbers of the types that are used; for the dependencies if the path of the project has less than 4070 bytes. So no name is cut off and the files are different ones. The buffer of the files that commands write has exactly the room that is needed. If the path of the project has 4080 bytes or more, the files for the dependencies of all commands have the same name.", "quantifier": "all kinds of temporary files, all numbers, all lengths of the path of the project", "why_tests_cant": "Tests make few temporary files in one run and never reach long numbers or long paths.", "anchors": ["src/tup/server/fuse_fs.c: 184-211", "src/tup/server/master_fork.c: 382-402", "src/tup/server/fuse_server.c: 512-534", "src/tup/server/depfile.c: 275-291", "src/tup/updater.c: 2308-2310", "src/tup/updater.c: 2789-2804"]}
