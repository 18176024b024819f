# Formal model of FASTBuild in Lean 4: design

Source modelled: `/repo` (fastbuild/fastbuild, pinned commit), read as text. Paths below are
relative to `/repo`; `FBC/` abbreviates `Code/Tools/FBuild/FBuildCore/` and `Core/` abbreviates
`Code/Core/`.

## Layout

* `lean/Verif/<Area>/Model.lean` – executable model, each definition citing file and lines.
* `lean/Verif/<Area>/Spec.lean` – small independent specification (when the property needs one).
* `lean/Verif/<Area>/Lemmas*.lean` – helper lemmas.
* `lean/Verif/<Area>/Props.lean` – the property theorems, named `Cxx_...`, with non-vacuity
  `example`s beside them. Nothing else lives there.
* `properties.jsonl` – English properties. `MANIFEST.json` – property → theorem names.
* `seeded/LOG.jsonl` – log of model mutations ("seeded bugs") tried against the theorems.

## Trusted base

1. Lean 4.33.0 kernel, and the axioms `propext`, `Classical.choice`, `Quot.sound` (at most; see
   "Axioms per theorem" below). No own axioms, no `sorry`, no `native_decide`, no `bv_decide`.
2. The faithfulness of the model: it was written by reading the C++; the code was not run.
   Each definition carries the lines it models and the simplifications made.
3. External behaviour appears as parameters (compilers, file system, network, clock, LZ4/zstd,
   xxHash) and only the explicitly stated hypotheses about them are used.

## Conventions

* C++ `ASSERT` failures and undefined behaviour are explicit outcomes of the model where a property
  is about them, otherwise preconditions of the theorem.
* Fixed width integers are `BitVec`/`UInt` or explicit `% 2^n` where the property is about wrap-around,
  otherwise `Nat`.
* Multi-threaded code is modelled as an interleaving of the critical sections: each mutex-protected
  region (or each atomic operation) is one step, and theorems quantify over all step sequences.
* When the unchanged code violates the intended property, the negation is proved with a concrete
  witness, and the strongest true variant is kept as `..._partial`. All such findings are listed in
  "Findings".

## Plan per property

| id | modelled code | how it is proved |
|----|---------------|------------------|
| C01 | `DoBuildPass`/`BuildRecurse`/`CheckDependencies` as a fuelled recursive state transformer over a node map; job completion as arbitrary events | invariant "BUILDING or UP_TO_DATE ⇒ all deps UP_TO_DATE" by induction over the recursion and over event lists |
| C02 | same model with a ghost log of enqueued nodes | invariant "log has no duplicates and contains exactly the nodes that left DYNAMIC_DEPS for BUILDING" |
| C03 | same | monotonicity lemma for every recursive function, lifted to event lists |
| C04 | same | invariant: FAILED ⇒ inductively defined `RootCause` |
| C05 | same | closure of UP_TO_DATE under dependencies |
| C06 | same plus `CheckForCyclicDependencies` | after a sweep every unfinished visited node has an unfinished or building dependency; finite graph ⇒ cycle |
| C07 | DFS model | soundness and completeness of DFS against an inductive path specification |
| C08 | same | fuel bound (#nodes + 1) is sufficient |
| C09, C10, C12 | stamps, `DetermineNeedToBuild*`, `Finalize`; file system and tools as parameters | history invariant linking recorded stamps and contents |
| C11 | `DetermineNeedToBuild` | direct equivalence with a quantified spec |
| C13 | `AddJobToBatch`, `FlushJobBatch`, `FinalizeCompletedJobs` counters | invariant over operation lists |
| C14 | `JobSubQueue` | sortedness + permutation |
| C15, C16 | mutex-granular transition system of one job queue with many jobs | invariant over all interleavings; witness schedules for the assertion failures |
| C17 | `CleanPath` (Linux and Windows flavour) | refinement to component-stack specification |
| C18 | hash table of chained nodes | refinement to association list |
| C19, C20 | byte-level encoders/decoders over `ConstMemoryStream` model | round-trip by induction |
| C21 | file overwrite as a sequence of writes, crash at any prefix | content hash check |
| C44 | the checks of `NodeGraph::Load` against a world of files and variables | equivalence with a separate predicate |
| C22, C23 | header arithmetic over byte lists, LZ4/zstd as parameters | round-trip; out-of-bounds read is an explicit outcome |
| C24 | page list model | refinement to a byte list |
| C25 | recursive matcher | equivalence with inductive relation |
| C26 | single column DP loop | equality with the minimum over edit scripts |
| C27 | top-k insertion loop | invariant |
| C28 | table based CRC over `BitVec 32` | equality with bitwise definition |
| C29, C30 | loops over character lists | induction |
| C31, C32 | path helpers | refinement to component lists |
| C33 | free list allocator with explicit addresses | invariant |
| C34 | bucketed map | refinement to a function |
| C35 | `ShellSort` loops | sortedness + permutation |
| C36 | array with capacity | refinement to list |
| C37 | job counters of the worker, every atomic access a step | invariant over all interleavings; witness for the torn read |
| C38 | manifests, waiting jobs and connection threads of the worker | invariants over all interleavings; run lemma for delivery; invariants showing that a stuck tool stays stuck |
| C39, C40, C46 | manifest serialisation, environment block, conflict check, `DoBuild` of the manifest | round-trip; acceptance implies the checks; distinctness of remote paths; witnesses |
| C41, C45 | `writev` and `recv` loops, framing, message layout byte by byte | refinement to message list; every error is noticed |
| C42 | retry counter | bound by induction |
| C43 | shared page range of 16 pools | invariant over all histories |
| C47, C48, C49 | `UnityNode` from inputs to files on disk, float arithmetic as a parameter | permutation of the compiled names; uniqueness of sorted lists; injectivity of the texts |
| C50 | `BFFBooleanExpParser` on a token list, assertion failures as outcomes | accepted iff derivable: mutual structural induction on the grammar one way, induction on fuel the other |
| C51 | the whole evaluator of build files on tokens: frames, scopes, variables, `If`, `ForEach`, `Using`, `Print`, user functions; the 128 frame limit | induction on the remaining depth and on the tokens of each range, with an invariant on frames (nothing in the innermost scope is frozen, the variable modified last exists) |
| C52 | the same | each statement keeps the frames below (same names and freeze counts; exactly the same without `^`), by the same induction |
| C53 | the same | two runs with different frames below the frame of the function are related step by step |
| C54 | the same | frozen arrays keep their values through any body, so each iteration reads the elements of the start |
| C55 | `PerformVariableSubstitutions` (in `Bff/InterpModel`), `HandleDirective_Import` | accepted iff derivable, and the escaped value is in the relation with the value |
| C56 | `HandleDirective_IfExpression` and its terms on a token list | accepted iff derivable: the history of results stands for a disjunction of conjunctions |
| C57 | the whole tokenizer on lists of characters, with its files | each round consumes text, blocks and rests are shorter than the text they are cut from; what is recorded only grows |
| C58 | the same, against a relation between texts and tokens | induction on the text, one lemma per kind of token |
| C59 | the same in two worlds | both runs are related step by step |
| C60 | the same, against balanced lists of lines | induction on the balanced lines and on the branches |
| C61 | `NodeGraph::Migrate` and everything it calls over graphs with arbitrary reflected properties | invariant on the graph under migration; `C61_history` discharges the migration step assumed by C09 |
| C62 | the same, against a description of "the same project" | induction on recursion depth with a rank on dependencies; then the argument of C10 |
| C63 | `ICache::GetCacheId`, `Cache::GetFullPathForCacheEntry`, the directories of `GetCacheFiles` | injectivity of fixed-width hexadecimal |
| C64 | `Cache::Publish` and `Retrieve` as processes making one system call at a time on a POSIX file system (names, inodes, truncation, holes), with failures, partial reads and writes, crashes | inductive invariant over all interleavings; false for overlapping publishers of one identifier (`C64_overlap_violates`) |
| C65 | the loop of `Cache::Trim` | induction over the sorted files |
| C66 | `DetermineFlags`, `ShouldUseCache` over option strings (with `Tokenize` of C29) | folds over the tokens against conditions on the list of tokens |
| C67 | `GetExtraCacheFilePaths` with the flags of C66 and `CreateFromFiles` of C23 | exact condition; false for one combination (`C67_five_files`) |
| C68 | `GetCacheName`, `WriteToCache_*`, `RetrieveFromCache` with hashes and compiler as parameters | composition of C22, C23, C63, C64 |
| C69 | `ParseGCC_Preprocessed` over character lists | refinement to a specification over whole lines |
| C70 | `ParseMSCL_Output` | the same; false for network shares (`C70_network_not_found`) |
| C71 | `ParseMSCL_Preprocessed` with its search backwards | refinement to a specification over whole lines |
| C72 | `AddInclude` with the hash as a parameter | invariant over all sequences; false if hashes collide (`C72_collision_drops`) |
| C73 | Light: the parser character by character (`Light/Model.lean`). Spec: a nondeterministic reader of C text (`Step`) which may take quotes for anything; every `#` it can reach at the start of a line is acted on by the parser | `C73_include_partial`, `C73_macro_partial`, `C73_define_partial`, `C73_ends`; fails: `C73_behind_comment`, `C73_include_next`, `C73_slash`, `C73_continued` |
| C74 | Light: `ProcessInclude` with the include stack and the shared cache. Spec: `Opens`, the files reachable under any outcome of conditions, with the search order of MSVC. Proof: depth-first search leaves a closed set | `C74_closed_partial`, `C74_files`, `C74_ends`, `C74_directory`; fails: `C74_two_values`, `C74_defined_later`, `C74_two_parents`, `C74_gcc` |
| C75 | Light: `Hash`. Two file systems with one key: by induction over `Opens` both resolve each include to the same file, as what shadows a file is itself recorded | `C75_sound_partial`; fails: `C75_forced_include`, `C75_command_line`, `C75_order` |
| C76 | Light: simulation of the search with two shared caches | `C76_cache_partial`, `C76_filled`; fails: `C76_error_lost`, `C76_generated`, `C76_uninitialised` |
| C77 | Args: description `Forwarded` of the words by tables of rules, unique; buildArgs refines it | `C77_words`, `C77_compile`, `C77_defined`, `C77_ordinary`; notes: `C77_second_kept`, `C77_unclosed` |
| C78 | Args: no rule of the first table and of the second apply to the same token | `C78_reaches`, `C78_once`; exceptions: `C78_torn`, `C78_swallowed`, `C78_twice` |
| C79 | Args: simulation of local processing by sending and processing on a worker | `C79_sent`, `C79_same_partial`; fails: `C79_lost` |
| C80 | Args: invariant of the recorded delimiters, decision logic, escaping read back | `C80_direct`, `C80_error`, `C80_no_assertion`, `C80_file`, `C80_blanks`, `C80_escape`, `C80_mode`; fails on workers: `C80_worker` |
| C81 | Args: histories of builds with a cache; the key determines the words | `C81_options_partial`, `C81_off`; fails: `C81_deoptimized` |
| C82 | Dirs: entries of directories as a tree, the walk with its filters, sorting; against an inductive description of the files and the definition of matching of C25 | `C82_files_partial`, `C82_dirs_partial`, `C82_sorted`, `C82_order`; fails: `C82_dotdot` |
| C83 | Dirs: the text hashed for a list determines it | `C83_windows`, `C83_stamp`, `C83_flat_partial`; fails: `C83_collision`, `C83_collision2` |
| C84 | Dirs: graphs as lists of named nodes, copying node by node, invariant over the loop | `C84_copies`, `C84_exact_partial`, `C84_succeeds`; fails: `C84_case`, `C84_moved` |
| C85 | Dirs: the same for objects; names of objects | `C85_objects`, `C85_exact_partial`, `C85_name`, `C85_loose_name`, `C85_distinct`, `C85_defined`; fails: `C85_case`, `C85_renamed` |
| C86 | Dirs: deleting over a file system of paths, where directories must be empty and anything may be refused | `C86_only`, `C86_gone`, `C86_all`, `C86_excluded`; limits: `C86_leftover`, `C86_overlap` |
| C87 | Nodes as trees; `Inside`, `Linked`, `InFile` say what is to be in; the input lists are folds over sequences, compared with them by induction over trees | `Link.C87_library`, `Link.C87_linked`, `Link.C87_objects`, `Link.C87_order`, `Link.C87_once`, `Link.C87_once_library`, `Link.C87_refused` |
| C88 | A relation from tokens to words (`Turned`, `Ended`), proved to have exactly one solution, which is what is laid out on the command line | `Link.C88_linker`, `Link.C88_library`, `Link.C88_exec`, `Link.C88_cs` |
| C89 | What the options say as a relation (`Reads`), what is found as `Hit`; dependencies are exactly the hits. Partial: default libraries named twice | `Link.C89_defined`, `Link.C89_dependencies_partial`, `Link.C89_defaults_kept` |
| C90 | Decision logic over all outcomes of processes and writing. Partial: a failed write of the output of an `Exec` is not noticed | `Link.C90_link`, `Link.C90_tool`, `Link.C90_exec`, `Link.C90_stdout_partial`, `Link.C90_test` |
| C91 | Flags of tokens folded, each characterised; deletion stated outright | `Link.C91_incremental`, `Link.C91_cleanup` |
| C92 | `Verif/Bff/InterpModel.lean` has the five `Store*` functions and `ConcatVarsRecurse`; `ValueSpec.lean` has the table of types and what putting structs together means, without the model's helpers; each operator is shown to accept exactly the table | `Bff.Value.C92_struct`, `C92_struct_names`, `C92_plain`, `C92_plus`, `C92_new`, `C92_assign`, `C92_minus`, `C92_literal`, `C92_array`, `C92_types`, `C92_open_structs` |
| C93 | `Verif/Decl/Model.lean` has `PopulateProperties` and what it calls, over any class of properties; `Spec.lean` says what a string of a property is worth (`Value`), what aliases stand for and how classes are gone through (`Runs`, `Elems`, `From`); each type of property is shown to be accepted exactly as stated, classes by induction | `Decl.C93_strs`, `C93_str`, `C93_missing`, `C93_bool`, `C93_int`, `C93_uint`, `C93_class`, `C93_structs`, `C93_embed`, `C93_nodes`, `C93_graph`, `C93_negative`, `C93_empty_alias` |
| C94 | `GetNodeList` on a graph as a list of nodes; the result is stated by `targets` and `firsts` in the graph after; recursion into aliases is shown to end as aliases do not stand for aliases | `Decl.C94_accepted`, `C94_list`, `C94_other`, `C94_inputs`, `C94_firsts`, `C94_no_targets`, `C94_repeated` |
| C95 | `Commit`, `GetNameForNode`, `ProcessAlias` and the check for cycles; invariant `WF` of graphs and `Extends` of names, kept by each step; `Initialize` is a parameter with what it may do (`InitOK`), shown for aliases; what is assumed of cleaning is shown for `CleanPath` on Linux | `Decl.C95_define`, `C95_known_header`, `C95_known_output`, `C95_used`, `C95_file`, `C95_alias_init`, `C95_alias`, `C95_linux`, `C95_self` |
| C96 | The generator as functions on characters, against a JSON reader of its own written for the specification; walk of the graph by a depth-first search proved to reach exactly what is reachable | `Compdb.C96_database_partial`, `Compdb.C96_defined`, `Compdb.C96_same`, `Compdb.C96_not_ascii`, `Compdb.C96_object_lists` |
| C97 | Search with marks, shown to be the depth-first search of C96 on the graph without the dependencies of users | `Source.C97_one_partial`, `Source.C97_unknown`, `Source.C97_covers`, `Source.C97_two`, `Source.C97_two_sources` |
| C98 | `process` is the loop over the arguments; a command line is specified as a list of items (inductive relation `Items`) and the options field by field as the last item about the field (`Meaning`). Both directions: accepted iff there are such items. The wrapper: Windows argument parsing `argv` of the text that is kept gives the arguments back, so the options are the same but for the mode. | `C98_meaning`, `C98_build`, `C98_wsl`, `C98_wrapper_partial`, `C98_source_blank`, `C98_target_backslash`, `C98_wsl_blank`, `C98_trim_zero`, `C98_number_text`, `C98_report_name` (Verif/Cmd) |
| C99 | transition system of all processes of a directory (`act`): two mutexes, the shared memory with its open handles, the steps of plain, main, intermediate and final processes, and kills. Invariant by induction over executions of any length. | `C99_kinds`, `C99_exclusive_partial`, `C99_result_partial`, `C99_stored`, `C99_hang`, `C99_hang_reached`, `C99_two_builds`, `C99_not_built`, `C99_old_result` (Verif/Procs) |
| C100 | transition system of a worker (`act`): connections, waiting, pending, completed jobs, jobs in flight, worker threads, the thread of the server, and disconnects in four steps. Invariant with a ghost map from jobs to holders, by induction over executions of any length. Full claim false: a result can go to another client. | `C100_one_holder`, `C100_lists`, `C100_one_result`, `C100_not_lost`, `C100_own_client_partial`, `C100_wrong_client`, `C100_wrong_client_ok`, `C100_dangling` |
| C101 | `SLNNode::Initialize` and `SLNGenerator` write lines from the values of a build file; a reader of solution files (`read`) written apart from them gives back entries, sections and pairs. The text is shown to read as the document expected, and its entries and pairs are related to the input. Full claim false: see the findings. | `C101_entries`, `C101_configs_partial`, `C101_folders_partial`, `C101_items`, `C101_dependencies_partial`, `C101_name_partial`, `C101_guid_false`, `C101_folders_false`, `C101_case_false`, `C101_configs_false`, `C101_name_false` |
| C102 | the loop of `ExtractIntellisenseOptions` over tokens, with assertions; `Says` is a relation on arguments that gives each option its value, shown to be a function. Induction over `Says`. Full claim false: values in arguments of their own are read again as options. | `C102_options_partial`, `C102_code_partial`, `C102_additional_partial`, `C102_light`, `C102_options_false`, `C102_additional_false`, `C102_quote_false` |
| C103 | both files as lists of lines; a reader of XML (a state machine over characters, then a tree) written apart from the writer, and small functions that look for files, configurations, properties, places and filters in a tree. Every line printed is shown to be read as one element, so the text is read as the expected tree. Files: the sort of C35 makes equal names adjacent. Folders: invariant that the list is closed under parents. Full claim false: names of files are not escaped, numbers of folders can collide. | `C103_files_partial`, `C103_configs_partial`, `C103_properties_partial`, `C103_filters_partial`, `C103_filters_written`, `C103_guid_partial`, `C103_read_false`, `C103_kinds_false`, `C103_forced_false`, `C103_folders_false`, `C103_guid_false` |
| C104 | the shared file system as a list of files, the worker as a state machine with its timers, the client as a function. The environment of each call (times, names, settings, what the file system allows) is arbitrary, and between calls others may do anything to files of other names. Invariant over all runs: every file of a name of this machine is the one the worker goes by, is there only while the worker is available, and says the names and settings the worker has noted. Directories: the loop is shown to give the pieces between semicolons, trimmed. Runs with a failing deletion, and a worker that is available most of the time, are followed for any number of calls. | `C104_roots`, `C104_given`, `C104_found`, `C104_none`, `C104_announced_partial`, `C104_withdrawn_partial`, `C104_told`, `C104_one`, `C104_ended`, `C104_offered_partial`, `C104_hidden_partial`, `C104_clean`, `C104_clean_due`, `C104_roots_false`, `C104_twice_false`, `C104_local_false`, `C104_withdrawn_false`, `C104_announced_false` |
| C105 | Settings, options, idle detection and availability as functions; runs of any length by induction, with a counter argument for the smoothing; negations with concrete runs | `C105_limit`, `C105_taken`, `C105_idle`, `C105_busy`, `C105_idle_only`, `C105_measure_partial`, `C105_proportional_partial`, `C105_saved`, `C105_options`, … |
| C106 | All threads as one transition system with atomic actions; inductive invariant with sums over threads; decreasing measure for the destructor | `C106_order`, `C106_once`, `C106_woken`, `C106_moves`, `C106_not_stuck`, `C106_ends`, `C106_over`, `C106_done_partial`, `C106_lost_false` |
| C107 | `Copy` as a function on a list of named nodes, with the resolution of aliases by recursion bounded by the number of nodes; the copy loop of Linux against every sequence of results of sendfile, read and write; text files and lists of dependencies as functions. Spec: `Files`, `DestIs`, `SourcesAre`, `Below`. Induction over sources, results and dependencies | `C107_copies`, `_apart`, `_refused`, `_copied_partial`, `_only_there`, `_link`, `_text`, `_text_read`, `_listed`, `_in_order`, `_each_node_once`, `_copied_false`, `_link_again_false`, `_direct_false` |
| C108 | Memory as blocks that can be freed, strings as pointer, length, capacity and flag. One invariant (each string owns its block, blocks are not shared, none is without an owner, terminator inside) and one frame relation per change of a string. Simulation of every operation against an independent specification on sequences of optional bytes (`Abs.step`), by induction over all sequences of operations. Allocation count by induction on the number of characters | C108_strings, C108_own, C108_no_leak, C108_append_own_partial, C108_few_allocations, C108_self_move, C108_reserve_zero_false, C108_append_own_false, C108_longest_false |
| C109 | `ConnectToWorkers` with its timers as a function of the list of workers and connections; the conversation as a transition system with the main, receiving and sending threads of every connection, the channel both ways and the worker; invariants over all reachable states; a simulation of a queue for the order of messages | `C109_connections`, `C109_new_connections`, `C109_all_tried`, `C109_availability`, `C109_no_assert`, `C109_each_job_once`, `C109_ledger`, `C109_lost_connection`, `C109_denied`, `C109_result`, `C109_attempts`, `C109_fifo`, `C109_awake`, `C109_told_again`, `C109_told_partial`, `C109_told_false`, `C109_pause_false` |
| C110 | `StrNCmp`, `==`, `Compare`, the loops of `Find`/`FindLast` (with and without case) over the bytes in memory, reads outside are `none`; results characterised as the first/last position of an occurrence defined by splitting the string | `C110_equal`, `C110_compare`, `C110_order`, `C110_equal_letters`, `C110_small_letters`, `C110_find`, `C110_find_chars`, `C110_find_char`, `C110_find_last_partial`, `C110_find_last_char`, `C110_begins_ends`, `C110_begins_ends_char`, `C110_zero_false`, `C110_find_last_long_false` |
| C111 | Linux `Process`: argument buffer with allocations and pointers, environment block, descriptor tables; `ReadAllData` as a step machine with moves of the program, its children, the clock and other threads between any two system calls | `C111_arguments`, `C111_environment`, `C111_descriptors`, `C111_output`, `C111_all_output_partial`, `C111_at_end`, `C111_never_stuck`, `C111_ends`, `C111_abort`, `C111_timeout_partial`, `C111_status`, `C111_running`, `C111_interrupted_false`, `C111_timeout_false` |
| C112 | job and result messages over the streams of `Verif/IO`, files through `MultiBuffer` and `Compressor` (C22, C23), names from flags; compiler on the worker as a set of files | round trips; composition from client to worker and back for every combination of files; false with a precompiled header (`C112_pch_false`), unreadable files (`C112_unread_false`) and damaged data (`C112_corrupt_false`) |
| C113 | `DoBuild` as a function of the node, the hash and what becomes of the process; `Find`, `Tokenize` over texts as lists of characters; `Migrate` | the output is described by its lines (`Lines`, `Before`), independently of searching and splitting; the result is the paths of the lines. Witnesses for what a rebuild keeps, quotes and framework directories |
| C114 | `InitializeCompilerFamily` as a function of the given name and the executable, `EqualsI`/`EndsWithI` over lists of characters | tables of names against `File` (a name, in any case, in any directory) and `Same` (equal but for case); the chain of endings is evaluated on the reversed path, which is a known name followed by an unknown directory. Witnesses for versions, directories and endings |
| C115 | `GatherPostBuildStatisticsRecurse` with tags and counters, the totals, the list by time (sorting is a parameter) | a simulation by the depth-first visit of `Verif/Compdb/Dfs.lean`; counters are sums over the tagged nodes, which are the needed ones (`Needed`, `Lists`), so each row is the number of needed targets that are so. Witnesses for light misses and overflow of the times |
| C116 | Files and folders of the generator as a growing list with indices; objects with identifiers and fields; texts of settings and arguments. Invariant by induction over added files (tree, permutation of all indices); round trips against a property list reader and an XML attribute reader written for the purpose. | `Xcode/` |
| C117 | memory as byte lists with bounds; both builders of blocks, saving, loading and the reading of a block by Process::Spawn | exact contents of the block by induction over the variables, for any contents of fresh memory |
| C118 | the loop over the groups and the lookup by name | equivalence with the list of groups at their indices, then arithmetic |
| C119 | The profile as text, against JSON as a relation between values and texts; the counters as a reader sees them | `Profile.C119_json_partial`, `Profile.C119_events`, `Profile.C119_named`, `Profile.C119_name_partial` |
| C120 | `Verif/Bff/InterpModel.lean` (`fnUsing`, `function`); `UsingSpec.lean` says what the scope is afterwards as a list of names and values, without the model's helpers | the loop is computed in closed form by induction over the members; `Bff.Using.C120_using`, `C120_parent`, `C120_error`, `C120_values`, `C120_seen`, `C120_again`, `C120_distinct` |
| C121 | `Verif/JobMem/Model.lean`: `OwnData` in its steps (free, subtract, set, add) for any number of jobs, the destructor, the test of the limit; `Spec.lean`: sums of sizes over jobs, the buffers of jobs, runs | an invariant over all interleavings (total = what is counted, heap = what is held, weight of queued jobs); `JobMem.C121_total`, `C121_bounds`, `C121_faults`, `C121_buffers`, `C121_end`, `C121_limit` |
| C122 | `Verif/Report/Libs.lean`: the recursive visit with its tags and the library at hand; `LibsSpec.lean`: what a target needs (objects are leaves), a row computed from a list of objects | the visit is simulated by a log of nodes with their library (`LibsProof.lean`, with `Compdb/Dfs.lean`); `Report.C122_libraries`, `C122_safe`, `C122_total`, `C122_parts`; `C122_target_false` |
| C123 | `Verif/Report/Json.lean`: the writer, as tokens; `JsonSpec.lean`: JSON over tokens as a relation, the value a report stands for | loops are joined lists with a comma left over or not; no JSON has a comma before the end of an array; `Report.C123_json_partial`, `C123_exact`, `C123_strings`; `C123_commas_false`, `C123_names_false` |
| C124 | the evaluator of C51 (`Verif/Bff/InterpModel.lean`); `NamesSpec.lean` says when a value, a scope have each name once, by recursion over values alone | invariant over all functions of the evaluator for runs that have a result, then induction over the depth; `Bff.Names.C124_run`, `C124_kept`, `C124_statement`, `C124_base`; with it `C120_ready`, `C120_reached`, `C120_reached_parent` |
| C125 | `Verif/Bff/PrintModel.lean` (`PrintVarRecurse`), with the tokenizer of C58 and the evaluator of C51; `PrintSpec.lean` says which values can be written | the text is one of the relation of C58 (`PrintText.lean`), the tokens are evaluated by induction over the value (`PrintEval.lean`); `Bff.Print.C125_back`, `C125_same`, `C125_file` and five `_false` |
| C126 | `Verif/Report/Incl.lean`: table of chains, add, walk, flatten; `InclSpec.lean`: ways to objects as a relation, mentions of a header | invariant of the table against the log of what was added, induction over the walk; `Report.Incl.C126_list`, `C126_objects_partial`, `C126_total`; `C126_twice_false` |
| C127 | `Verif/Monitor/Model.lean`: the formats, the messages; `Spec.lean`: a reader of the log | what the reader does on each format; messages have no quotes and ends of lines; lines of a prefix; `Monitor.C127_read`, `C127_live`, `C127_same`; `C127_name_false`, `C127_quote_false` |
| C128 | `Verif/Ext/Model.lean`: the node with what it keeps between builds; module and file as parameters | first occurrence of a tag as a relation, `FindI` finds it; `Ext.C128_guid`, `C128_ok`, `C128_fails`, `C128_kept`, `C128_configs`; `C128_stale_false`, `C128_order_false`, `C128_missing_false` |
| C129 | `Verif/Progress/Model.lean`: the walk with tags and stored sums, the smoothing over rationals with a rounding; `Spec.lean`: needed nodes as a relation, what is left | a step of the walk against the list of counted nodes; `Progress.C129_sums`, `C129_done`, `C129_stored`, `C129_ends`, `C129_estimate`, `C129_shown`; `C129_twice_false`, `C129_failed_false` |
| C130 | `Verif/Clean/Model.lean`: the loop over the rest of the message, with a bound on its passes that is proved to be enough; in `Props.lean`: texts that differ in colons only as a relation, messages put together from errors | induction over the passes; `Clean.C130_colons`, `C130_kept`, `C130_errors_partial`, `C130_warnings_partial`, `C130_mixed_partial`; `C130_warning_false`, `C130_twice_false`, `C130_two_false` |
| C131 | `Verif/Fixup/Model.lean`: the three styles, with the tokens of C29; path cleaning and number scan as parameters | tokens of texts put together with colons; parity of quotes for the third style; `Fixup.C131_rest`, `C131_colons`, `C131_commas`, `C131_snc`, `C131_mnt`, `C131_safe`; `C131_first_false` |

## What is modelled and what is not

Modelled (the model file cites the lines, definition by definition):

| model | code |
|-------|------|
| `Sched/Model` | `NodeGraph::DoBuildPass`, `BuildRecurse`, `CheckDependencies`, `CheckForCyclicDependencies`; `FBuild::Build` loop; job completion as events |
| `Incr/Model` | `Node::DetermineNeedToBuild*`, `Finalize`, stamps, `ObjectNode::Finalize`, `FileNode::DoBuild`, histories of builds, edits, kills, changed build files |
| `Jobs/Model` | `JobQueue`, `JobSubQueue`, `Job` states, `WorkerThread::Update`, the parts of `Client` that touch the queue, at mutex granularity |
| `Db/Model` | `Dependencies`, `Node`, `NodeGraph` load and save, `BFFFileExists`, `SaveDependencyGraph` |
| `IO/StreamModel`, `IO/CompressModel` | `IOStream`, `ChainedMemoryStream`, `MemoryStream`, `ConstMemoryStream`, `Compressor`, `MultiBuffer` |
| `Net/FrameModel`, `Net/ProtocolModel`, `Net/ManifestModel` | TCP send and receive loops, message layout, `ToolManifest`, conflict check of `CompilerNode` |
| `Server/LoadModel`, `Server/SyncModel` | `Server::FindNeedyClients`, counters; `Process( MsgJob / MsgManifest / MsgFile )`, `CheckWaitingJobs`, `RequestMissingFiles`, `OnDisconnected` |
| `Str/*` | `AString` matching, replacing, tokenising; `PathUtils`; `LevenshteinDistance`; `CleanPath`; nearest nodes |
| `Unity/Model` | `UnityNode::DoBuild`, `GetFiles`, `FilterForceIsolated`, ordering of files, `DetermineNeedToBuildStatic`; sorting in `DirectoryListNode` |
| `Bff/Token`, `Bff/BoolModel` | `BFFToken`, `BFFTokenRange`, `BFFBooleanExpParser` |
| `Bff/InterpModel` | `BFFParser` (everything after tokenising), `BFFStackFrame`, `BFFVariable`, `BFFUserFunctions`, `FunctionIf`, `FunctionForEach`, `FunctionUsing`, `FunctionPrint`, `Function::ParseFunction`; `Commit` is a parameter and an event |
| `Bff/LexModel` | `BFFTokenizer` (everything), `BFFMacros`, `BFFFileExists::CheckFile`, `FBuild::ImportEnvironmentVar`; file system, environment, hash and path functions are parameters; `%i` of `vsscanf` is written out |
| `Mig/Model` | `NodeGraph::Migrate`, `MigrateNode`, `MigrateProperties/Property`, `AreNodesTheSame`, `DoDependenciesMatch`, `Node::Migrate` and its overrides; `Initialize` of a node is a parameter that names its dependencies; recursion by fuel (`C61_terminates`); numeric property types are merged |
| `Cache/IdModel` | `ICache::GetCacheId`, `GetFullPathForCacheEntry`, `GetCacheFiles` (paths only), the temporary name | 
| `Cache/StoreModel` | `Cache::Publish`, `Retrieve`, `Trim`; `FileStream` and `FileIO` calls as atomic actions of a POSIX file system that may fail. Not modelled: the sharing modes of Windows (a second opener fails there; a failed or killed one still leaves the shared name), `EnsurePathExistsForFile`, network file systems without atomic rename; sizes in `Trim` are unbounded |
| `Cache/FlagsModel` | `ObjectNode::DetermineFlags`, `IsCompilerArg_MSVC`, `IsStartOfCompilerArg_MSVC`, `GetExtraCacheFilePaths` (kinds of files, not names), `ShouldUseCache` |
| `Cache/HitProps` (definitions) | `GetCacheName`, `WriteToCache_*`, `RetrieveFromCache` after reading; hash functions, codecs and the compiler are parameters; file times and statistics are left out |
| `Crc`, `Cont`, `Sort`, `Mem` | `CRC32`, `Array`, `UnorderedMap`, node hash table, `ShellSort`, `MemPoolBlock`, `SmallBlockAllocator` |
| `Incl/Model` | `CIncludeParser` (all three parsers and `AddInclude`), `ProcessIncludesMSCL`, `ProcessIncludesWithPreProcessor` (choice of parser). `CleanPath` is the model of C17; xxHash is a parameter; OSX and the output files of VBCC are left out |
| `Cache/LightCache.cpp` | all of `Hash`, `Parse` and what they call | Hash set as a list found by name (its probing is not modelled); hashes are parameters; one step per `FileExists` (the mutex of the bucket); macros which are no path by name instead of hash; a path beyond the file system's symbolic links is what `CleanPath` makes of it |
| `Helpers/ProjectGeneratorBase.cpp` | `ExtractIncludePaths`, `ExtractIntellisenseOptions` without `keepFullOption` and `escapeQuotes` | `Trim` of a single quote (assertion) keeps it |
| `ExeDrivers/Compiler/*.cpp`, `Helpers/Args.cpp`, `Helpers/ResponseFile.cpp` (contents), `ObjectNode::BuildArgs`, `SaveRemote` (arguments), `GetCommandLine`, `GetCommandLineKey`, `GetResponseFileMode`, `ShouldUseDeoptimization` (Args) | All drivers, function by function, on lists of characters. Not modelled: writing the response file, starting the process, the environment. The rest of the cache key is one number (`other`); see Cache for it. |
| `FileIO::GetFilesRecurse`, `DirectoryListNode::DoBuild` with its helper, `NodeGraph::FindNode` by name, `CopyDirNode::DoDynamicDependencies`, `ObjectListNode::GatherDynamicDependencies` (directory lists), `CreateDynamicObjectNode`, `GetObjectFileName`, `RemoveDirNode::DoBuild` (Dirs) | On trees of entries and lists of named nodes. Not modelled: file times and sizes, errors of the enumeration, sources of precompiled headers in lists, unity files (see Unity), flags of objects, messages. Symbolic links are files, as in the code. |
| LinkerNode.cpp:165-183, 229-413, 426-707, 781-970, 1069-1630, LibraryNode.cpp, ObjectListNode.cpp:628-684, DLLNode.cpp, ExecNode.cpp:187-402, CSNode.cpp:168-418, TestNode.cpp:180-262 (Link) | Inputs, command lines, other libraries, results, flags and cleanup. Not: looking up nodes by name, environments, messages, import library and manifest handling of other tools, emulation of response files (see Args) |
| operators on variables (`BFFParser::StoreVariable*`, `BFFVariable::ConcatVarsRecurse`) | modelled in `Bff/InterpModel.lean`; integers out of range are a distinct outcome; frozen variables and the text of errors are not part of C92 |
| making targets (`Function.cpp`, parts of `NodeGraph.cpp`, `AliasNode.cpp`) | names, types and dependencies of nodes; property metadata; error messages by kind. Not modelled: `Initialize` of nodes other than aliases (a parameter here; some are in other modules), header parsing, `MetaIgnoreForComparison` and migration, the chains of the node map, build pass numbers of node tags, the concrete classes of properties |
| `CompilationDatabase.cpp`, `JSON.cpp`, `EnumerateInputFiles` of object lists and unities (C96) | All of it; the files a directory or unity has are inputs; `GetObjectFileName` is that of `Verif.Dirs`. A node's tag is in the set `seen`. Failing assertions are `none`. Not modelled: writing the file to disk |
| `SourceFileTargetResolver.cpp` (C97) | All of it; paths have been looked up. Not modelled: dependencies before the build (the code does not look at them either) |
| `FBuildOptions::ProcessCommandLine`, the choice of what to do in `Main`, the command lines of `WrapperMainProcess`, `WrapperIntermediateProcess`, `WrapperModeForWSL` | Verif/Cmd/Model.lean. Messages, the working directory and the name of the program are left out; `sscanf`, redirection, the environment variable and the processor count are parameters; the parsing of a command line by the C runtime on Windows is modelled from its documentation (not part of the repository). |
| `Main`, `WrapperMainProcess`, `WrapperIntermediateProcess`, `SystemMutex`, `SharedMemory` as used by them | Verif/Procs/Model.lean. The build itself is one state of a process with any result; a `TryLock` may fail without reason; a killed process lets go of its mutexes and memory at once; the check for the main process during the build (FBuild.cpp:504) only makes the build fail and is covered by `finish` with any result. Initialising the memory (memset and the return code) is one step. |
| WorkerPool/JobQueueRemote.cpp, WorkerThreadRemote.cpp:39-79, Protocol/Server.cpp:95-180, 335-428, 563-600, 725-777 | `Verif/Worker/Model.lean`. A step is what one thread does under one lock. Whether tools are there and how builds end is left open; contents of jobs, the compression of results, the cap on the number of jobs and the counters of a client are left out. A result whose client is found is taken to be sent. Addresses of `ClientState` may be used again once freed; connections and jobs are not. |
| `SLNNode::Initialize` (defaults of configurations, `Win32` as `x86`, paths of folders, folders merged, projects gathered, configurations checked), all of `SLNGenerator::GenerateSLN`, `FormatDeterministicProjectGUID` (C101) | how nodes are found (`find`; C18), relative paths (`rel`; C31), resolving of `BuildProject` errors' texts, writing the file |
| `ExtractIncludePaths`, `ExtractDefines`, `ExtractAdditionalOptions`, `ExtractIntellisenseOptions`, with the tables of prefixes (C102) | which target's options are taken (`FindTargetForIntellisenseInfo`) |
| `VSProjectGenerator` whole (both texts, files, folders, identifiers) and the identifier made in `VCXProjectNode::Initialize` (C103) | `GetRelativePath` (a parameter), which target gives options or the program to debug (parameters), xxHash of folders (a parameter), the rest of `VCXProjectNode` |
| `WorkerBrokerage`, `WorkerBrokerageServer`, `WorkerBrokerageClient` whole (C104) | resolving names, listing directories and file times (parameters), rounding of float timers, spelling variants of the same path |
| `Usage/Model.lean` | FBuildWorkerOptions.cpp, WorkerSettings.cpp, IdleDetection.cpp, `Worker::UpdateAvailability`, `WorkerThreadRemote::IsEnabled`. Exact rationals for floats; process lists, times and `sscanf` are parameters; OSX left out |
| `Pool/Model.lean` | ThreadPool.cpp (constructor, destructor, `EnqueueJob`, `ThreadFunc`, creation and joining of threads) and `Semaphore::Signal`/`Wait` with the limit of Windows; any number of threads, all interleavings of atomic actions |
| `Verif/Copy` | FunctionCopy.cpp:36-198; CopyFileNode.cpp:57-91; FileIO.cpp:209-316 (Linux); TextFileNode.cpp:74-86; ListDependenciesNode.cpp:34-175. Not: pre-build dependencies, aliases made by the function, copying a file over a symbolic link, Windows and macOS `FileCopy`, writing of the text |
| `Verif/AStr` | `AString` and `AStackString`: constructors, destructor, assignment, moving, growing, lengths, appending, replacing and trimming characters, with the memory. Not modelled: formatting, scanning, tokenizing (C29), replacing strings (C30), matching (C25); addresses are never used again; an access through a pointer into another string is a copy of its bytes |
| `Verif/Client/` | The client side of distribution (`Client.cpp`). A step is what one thread does while it holds a mutex; the store of the semaphore's count and the signal are separate steps. Messages of a connection arrive in order (C41). The worker may do all that `Server.cpp` allows: ask for jobs at any time, ask for manifests and files while a job waits for its tool, start jobs when nothing of the tool is asked for any more. A disconnection takes effect on both sides at once. Which job the queue gives out and whether a local race was won are inputs (C15, C16, C42). Not modelled: what is in a result, the acknowledgement of a connection, logging, the failure of a send before the disconnection is noticed. |
| `Verif/StrFind/` | `Core/Strings/AString.cpp` queries: equality, order, find, find last, begins/ends with. `strcmp` and `strcasecmp` are the C library's, modelled as the standard has them; ASCII letters only |
| `Verif/Proc/` | `Core/Process/Process.cpp` on Linux. Not modelled: Windows and macOS branches, `Detach`, failing `pipe`/`dup2`, 32-bit sizes of the output strings, inheritance of other processes' descriptors |
| `Verif/Transfer/Model.lean` | `Job::Serialize`/`Deserialize`, `SaveRemote`/`LoadRemote` without the arguments, `WriteTmpFile` (name and contents), `ReadResults`, the result message and its handling: files written and fate of the job. Reads past the end of a message are `none` (the code ignores them); writing to disk always succeeds; races are in the job queue's model |
| `Verif/CompInfo/Model.lean` | CompilerInfoNode.cpp `DoBuild`, `Migrate`. The process is a parameter (C111), messages are left out |
| `Verif/Family/Model.lean` | CompilerNode.cpp `InitializeCompilerFamily`. Error messages are left out |
| `Verif/Stats/Model.lean` | FBuildStats.cpp `GatherPostBuildStatistics`, `GatherPostBuildStatisticsRecurse`, part of `OutputSummary` and `OnBuildStop`. Formatting and reports are left out |
| `Xcode/Model.lean` | `ProcessString`, `WriteString`, `WriteArray`, `EscapeArgument`, `AddFile`, `GetFolderFor`, `SortFilesAndFolders` (a stable sort stands for the Shell sort), all objects of `GeneratePBXProj` with identifiers, names, paths and references. Not modelled: fixed text, build settings other than their quoting, file types, the scheme's fixed parts. |
| `Settings/EnvModel.lean` | SettingsNode.cpp:159-197, FBuild.cpp:560-567, 623-638, Env.cpp:290-315, Node.cpp:1241-1265, Process.cpp:366-381, NodeGraph.cpp:341-351, 462-465, 495-506. The Windows side (CreateProcess reads the block itself) and the cache of a node's own block are left out. |
| `Settings/GroupModel.lean` | SettingsNode.cpp:138-151, 200-305, Node.cpp:1205-1237; 32-bit numbers are natural numbers with bounds as hypotheses. |
| `Profile/Model.lean` | BuildProfiler.cpp:59-105, 126-288 and Client.cpp:321-328. The conversions of times and of MiB to GiB by floating point numbers are parameters; failing writes are left out. |
| `Using` (`FunctionUsing::ParseFunction`, `BFFStackFrame::SetVar`) | modelled in `Bff/InterpModel.lean`; values are copied, so that the order of copying and freeing in `BFFVariable::SetValue*` is not part of the model |
| `Job::OwnData`, `Job::~Job`, the limit in `ObjectNode::DoBuildWithPreProcessor` | modelled in `JobMem/Model.lean`; each job is used by one thread at a time (assumed), `Atomic::Add` and `Sub` are single steps, `ALLOC` gives an address not in use; the contents of the data are not modelled |
| `Verif/Report/Libs.lean` | Report.cpp `GetLibraryStats`, `GetLibraryStatsRecurse`. Counters without their 32 bits; `GetIncludeFilesRecurse` and the HTML report are left out |
| `Verif/Report/Json.lean` | JSONReport.cpp `Generate` and all sections, as tokens; white space, numbers with decimals, `FixupTimeTakenPlaceholder` and `Save` are left out. The sorted lists are given |
| `FunctionPrint::PrintVarRecurse` | `Verif/Bff/PrintModel.lean`: in full; the name of an element of an array of structs, which values here do not have, is a parameter |
| `Verif/Report/Incl.lean` | `Report::GetIncludeFilesRecurse`, `AddInclude`, `IncludeStatsMap` (Report.cpp:231-365). Name hashes and the sort are parameters; counters are unbounded; the pool of memory blocks is left out |
| `Verif/Report/Sorting.lean` | the sorts that C115, C122 and C126 take as given are `ShellSort` (C35) with the comparisons of FBuildStats.cpp:25-32 and Report.h:55, 65 |
| `Verif/Monitor/Model.lean` | `FLog::Monitor` (FLog.cpp:88-109) and each use of it, `Job::GetMessagesForMonitorLog` (Job.cpp:228-272). The text of `%f` is given; writing a line is atomic (it is, under the lock) and does not fail; times are as the clock gives them |
| `Verif/Ext/Model.lean` | `VSProjectExternalNode` (VSProjectExternalNode.cpp:48-241). The module for Windows is a parameter; `FindI` is for patterns given without capitals; file errors are one case |
| `Verif/Progress/Model.lean` | `NodeGraph::UpdateBuildStatus` (NodeGraph.cpp:1523-1589), smoothing (FBuild.cpp:705-715). Times have no bound; the three lists of dependencies are one; rounding to a float is a parameter; a total of 0 (not a number in the code) is a ratio of 0; when it is called (once in a second) is left out |
| Graph/Node.cpp:1140-1203 `CleanMessageToPreventMSBuildFailure` | `Verif/Clean/Model.lean` | messages without a null character; the rest of a message stands for a position in it |
| Graph/Node.cpp:887-1120 `FixupPathForVSIntegration` and helpers | `Verif/Fixup/Model.lean` | lines without a null character; `NodeGraph::CleanPath` and `Scan` are parameters; the split of output into lines (Node.cpp:800-873) is left out |

Not modelled, and trusted or left open:

* Compilers and other tools, the operating system, file system and clock: parameters or events.
* Compression libraries, xxHash and the hashes used for file contents: parameters. Where a theorem needs
  that two given inputs do not collide, this is a hypothesis about these two inputs.
* The C++ memory model below the level of mutexes and atomics; thread creation, semaphores and timeouts.
* `Process`, `Thread`, `FileIO` wrappers, the GUI and the worker's settings.
* Copy and move operations of objects except where a property is about them (`Array`).

## Findings

Places where the code does not do what the property asks for. Each is a theorem about the model with a
concrete state or run, unless marked "read" (noticed while reading, not formalised).

Scheduler, incremental builds, job queue
* `C05_discovered_dependency_not_built`: a dependency found by `ObjectNode::Finalize` after the build of the
  object need not be built although the build succeeds.
* `C09_finalize_failure_stale`, `C12_finalize_failure_forgotten`: a failure of `ObjectNode::Finalize` is
  forgotten by the next build, which then keeps a stale object.
* `C16_disconnect_after_race_asserts`, `C16_return_after_failed_race_asserts`: if the remote half of a raced job
  ends between local completion and finalisation, assertions fail.
* read: a concurrency group whose limit is not below the number of worker threads counts as unlimited (C13 says
  so in its hypothesis). `HasPendingCompletedJobs` does not look at the failed jobs (harmless).
* read: a header changed between the compiler run and the first stat of the object's dependencies is missed
  (excluded by an assumption of C09).

Strings, paths, containers
* `C17_network_prefix_lost`, `C17_doubled_slash`, `C17_long_path_cut`: `CleanPath` loses the prefix of Windows
  network paths, doubles a slash in rare cases on Linux, and cuts paths of 65536 characters or more.
* `C27_typo_not_suggested`: a misspelt name with one letter replaced is never suggested.
* `C32_empty_is_root`: `FixupFolderPath` turns the empty string into the root directory.
* `C26_capacity`: the distance of two names of 1024 or more characters fails an assertion.
* `C36_append_own`: appending an element of the array to itself while it grows reads a destroyed object.
* read: `?` never matches a dot in patterns; `AString( 0 )` with a reserved size of 0 marks static memory as owned.

Streams, database, network
* `C19_truncated_out_of_bounds`: `Dependencies::Load` ignores a failing seek and reads outside the buffer.
* `C22_stored_out_of_bounds`, `C22_four_gib`: a buffer marked as stored with differing sizes is read out of bounds;
  sizes wrap at 4 GiB. `C23_untrusted_out_of_bounds`: `ExtractFile` trusts the sizes in the buffer.
* `C24_size_wraps`: the size of a chained stream is wrong from 4 GiB on.
* `C41_four_gib`, `C41_short_frame`: a message of exactly 4 GiB counts as sent although nothing was; a received frame is
  cast to its message type without looking at its size.
* `C45_close_missed`: a connection closed by the peer is not noticed if an earlier read left `EWOULDBLOCK` in `errno`.
* read: `Client.cpp:933` ignores a failing `Decompress`; `IOStream::Read` of strings and arrays trusts the
  length; a variable whose value hashes to 0 counts as missing.

Worker
* `C37_torn_read`: the worker may ask for more jobs than it has CPUs, as a job moves between two counters in two steps.
* `C38_stuck`, `C38_stuck_reached`: if the client asked for a manifest disconnects before sending it, jobs of other
  clients that wait for this tool are not started until someone sends a new job for it.
* `C38_abandoned`, `C38_abandoned_reached`: two overlapping disconnections can leave a tool to be sent by a connection that
  is gone; no job of this tool is ever started again on this worker.
* `C38_handover_assert`: a job and manifest arriving between the two halves of a disconnection make an assertion fail.
* `C39_cut_accepted`, `C39_zero_hash_refused`: a manifest cut before its environment is accepted; a file whose
  hash is 0 makes the manifest unacceptable.
* `C40_nested_accepted`: a remote path may be a directory of another one.
* `C46_migrated_size_lost`, `C46_tool_id_ignores_environment`: after a changed build file the manifest claims size 0 for
  unchanged files; two compilers that differ in their environment only share a tool id, and the worker uses the first
  environment for both.
* read: file names with `..` in a manifest can leave the tool directory on the worker; `ReceiveFileData` does not
  verify the hash of what it stores.

Unity
* `C47_no_star_loses_files`: without a `*` in the output name all unity files of a Unity are the same file, which
  ends up with the last one's contents; the other sources are not compiled.
* `C49_forced_unnoticed`: a file named by `.UnityInputIsolatedFiles` is in no unity file, so its appearance or
  disappearance changes neither the texts nor the stamp, and the object list is not rebuilt.
* `C48_case_matters`: on Linux two names that differ in case only are left in the order of the input.
* read: `EnumerateInputFiles` also reports the isolate list file and the source of the precompiled header, so both
  show up in a compilation database.

Build file language
* `C50_number_closes`: the bracket tests of a token look at memory shared with its number, so a number whose lowest
  byte is 40, 41, 91, 93, 123 or 125 is taken for a bracket where only the byte is looked at.
* `C50_no_precedence`: `true || true && false` is false in `If`; in `#if` the operator `&&` binds tighter.
* `C50_dangling_asserts`: `If( ! )`, `If( .A && )`, `If( .Arr in )` fail an assertion instead of being reported.
* `C50_surplus_ignored`: a condition that begins with a bracket ends at a surplus `)`.
* `C51_number_asserts`: `.A = 123` and `.A = 91` are taken for an opening bracket and fail an assertion (in a release
  build the rest of the file is searched for a matching bracket).
* `C51_bracket_asserts`, `C51_header_asserts`, `C51_alias_asserts`: `{ 'x' ) }`, `ForEach( .A )`, `ForEach( ^A in .B )`
  and `ObjectList( .X )` with a variable that is no string fail an assertion instead of being reported.
* `C51_overflow`: `+` and `-` on numbers overflow (undefined behaviour).
* `C53_capture`: arguments are evaluated with the parameters before them in scope, so `F( .B, .A )` passes the value of
  `.B` twice if the parameters of `F` are `.A` and `.B`.
* `ForEach` counts its arrays in an `uint8_t`; an array listed 256 times is not frozen (outcome `count` of the model).
* Tokens after the first one in the header of `Print` and `Using` are ignored (`fnPrint`, `fnUsing`).
* `^Name` as the header of `ObjectList` and the like means the variable of the scope the function is in, as the frame of
  the function is pushed before (`function`, `aliasTok`).
* `C56_number_brackets`: `#if exists 40 X 41` is accepted, for the same reason as `C50_number_closes`.
* `C57_once_asserts`: a file that includes itself before its `#once` fails an assertion.
* `C58_octal`: `010` is 8, `08` is 0, and `0x10` is the number 16 followed by the identifier `x10`.
* `C58_minus`: `.x-7` is a variable followed by the number -7.
* `C58_single_and`: a single `&` or `|` fails an assertion instead of being reported (in a release build it is taken for
  `=`).
* Text after `#else` in its line is read as part of the block, text after `#endif` is ignored (`toEnd`).
* `#` followed by something that is not a lower case letter is an error in a skipped block too (`dirName`).
* An `#if` that does not begin its line is handled where the text is read, but not counted where it is skipped.
* An environment variable whose value has the xxHash32 value 0 counts as missing in `exists( X )` (hypothesis
  `NoZeroHash` of C56).
- **C64** (`C64_overlap_violates`): `Cache::Publish` writes to `<entry>.tmp`, the same name for every machine. Two
  machines that compile the same object at the same time (the typical case after a common header changes) truncate
  and overwrite each other's temporary file, and the first to finish renames a file the other is still writing.
  The witness is an entry with the right length and header but zeros inside, reported as stored successfully, with
  both machines storing identical data. If the second writer dies, the damage is permanent.
- **C67** (`C67_five_files`): creating a precompiled header with `/analyze` and `/dynamicdeopt` yields five files,
  but `MultiBuffer::CreateFromFiles` has arrays for four on the stack, protected by an assertion only.
- **C66** (`C66_objectiveCpp_distributed`): "Objective C/C++ cannot be distributed", but `-x objective-c++` is.
  (`C66_quoted_not_recognised`): options in quotes are not recognised; `"/Zi"` is cached without its database.
- **C72** (`C72_collision_drops`, `C72_zero_drops`): headers are recognised by a 32 bit hash of their names only. If two
  names used by one source file have equal hashes (likely to happen somewhere with thousands of headers per file), or
  the first name hashes to 0, a header is silently missing from the dependencies, so later changes of it rebuild nothing.
- **C70** (`C70_network_not_found`): headers included from `\\\\server\\share` paths are not recorded as dependencies with
  /showIncludes. `C70_unterminated`: neither is one reported by a last line without a line end.
- **C69** (`C69_raw_string`): a line of a raw string literal which looks like a marker adds a dependency on a file that need
  not exist. `C69_escaped_quote`: a header with a quote in its name is not recorded.
- C73: the light cache does not see `/* c */ #include "a.h"` and `# /* c */ include "a.h"` (`C73_behind_comment`), takes `#include_next <a.h>` for the include of an undefined macro (`C73_include_next`), and loses includes around `/*/` (`C73_slash`) and `/*` in a continued line comment (`C73_continued`). The headers are neither part of the key nor dependencies.
- C74: of several definitions of a macro used by `#include MACRO` only the first is followed, though the comment in `ProcessInclude` says that all must be (`C74_two_values`); a macro defined after the first visit of a header is ignored (`C74_defined_later`); a header which finds a file through the directories of its parents is followed for the first parent only (`C74_two_parents`); for GCC and Clang the parents' directories should not be searched at all (`C74_gcc`).
- C75: `-include file` of GCC and Clang is not known as a forced include, so a change of that file keeps the key (`C75_forced_include`); the same for macros from `-D` used by `#include MACRO` (`C75_command_line`); `-iquote` directories are searched after `-I` (`C75_order`).
- C76: an error in a header is reported only to the first object which reads it; later objects use the light cache with the part of the header before the error (`C76_error_lost`). That a header was missing is remembered for the whole build (`C76_generated`). With `UseRelativePaths` on one of two compilers an uninitialised `m_RelativePathHash` goes into the key (`C76_uninitialised`).
- C77: only one placeholder of a token is filled in (`C77_second_kept`). The correction of include paths ending in `\"` is reached only for the last option of a line: `Tokenize` takes the same characters for an escaped quote, and the rest of the line becomes part of the path (`C77_unclosed`). `%3` without a precompiled header fails an assertion, and `/I"` alone on a worker computes a negative length (`Undefined`).
- C78: `-Xclang -include -Xclang all.h` is torn apart in the second pass (`C78_torn`); `/Yu` without a name swallows the next option (`C78_swallowed`); a forced include in quotes, `"/FIall x.h"`, is not recognised and included twice (`C78_twice`).
- C79: for Microsoft's compiler the path of `/I path` is lost on a worker, which adds its own root instead (`C79_lost`). With a dedicated preprocessor the first pass switches deoptimisation off but sending the job asks `ShouldUseDeoptimization` again.
- C80: a worker has no compiler node, so `AllowResponseFile` and `ForceResponseFile` are ignored there: on Linux and macOS a long command line is an error on the worker only (`C80_worker`).
- C81: the key always uses the normal options, but a writable file is compiled with the deoptimised ones and stored: everyone else gets the unoptimised object (`C81_deoptimized`).
- C82: directories whose names begin with two dots (such as `..old`) are passed over with everything in them (`C82_dotdot`); an excluded path that is the path of the list itself excludes only the directories below it (`C82_root_excluded`).
- C83: the names in a list are hashed with nothing between them, so that on Linux and macOS different recursive lists have the same stamp: the files `x` and `y` of `/a/`, and the file `x/a/y` (`C83_collision`, `C83_collision2`). On Windows the colon of the drive keeps them apart (`C83_windows`).
- C84, C85: nodes are found regardless of case on all platforms. On Linux, of two files `A.txt` and `a.txt` in one directory one is copied (or compiled) and the other silently is not (`C84_case`, `C85_case`).
- C84, C85: nodes of the build before stay in the graph. A file moved from one source path to another, or a source renamed from `a.c` to `a.cpp`, is reported as a conflict although a build without database works (`C84_moved`, `C85_renamed`).
- C86: with patterns or exclusions that leave something in a directory, removing the directories fails and with it the build (`C86_leftover`); so do paths one of which is below another (`C86_overlap`).
- C87: with both `%1[0]` and `%1[1]` in the options, the object of a precompiled header shared by both lists is given to the linker twice (`Link.C87_twice`).
- C88: a token of linker options with `%1` keeps a `%2` in it (`Link.C88_one_kind`). Librarians, `Exec` and C# fill placeholders only at the end of tokens though `Initialize` accepts them anywhere (`Link.C88_inside`). `/LIBPATH:` with the path in the next token is written as `/LIBPATH:""` (`Link.C88_libpath`). `CSNode::BuildArgs` passes the options where the name of the executable belongs when it finalizes the arguments (CSNode.cpp:350).
- C89: options that end in `-L`, `-l`, `/LIBPATH:` and so on make `GetOtherLibraries` read behind the end of the tokens (`Link.C89_out_of_bounds`); the comment says they are ignored. Full paths without a drive letter, and files in the working directory, are no dependencies (`Link.C89_full_path`). `/NODEFAULTLIB:x` takes away one of two default libraries x (`Link.C89_ignored_once`).
- C90: `ExecUseStdOutAsOutput` ignores that the file could not be opened or written (`Link.C90_stdout_lost`).
- C91: for an output without extension in a directory with a dot, `.ilk` and `.pdb` beside that directory are deleted (`Link.C91_beside`), and the import library is looked for there (`Link.C91_import`). `-Wl,--oformat=prx` is never recognised, as the token is put into lower case first (`Link.C91_prx`).
- C92: an array of structs without elements takes a string written out with `=`, but a variable that holds the same string, or `+` with the string written out, fails an assertion (`Bff.Value.C92_open_structs`).
- C93: unsigned properties without a range take negative numbers: `.WorkerConnectionLimit = -1` is 4294967295, and so are `.ConcurrencyLimit` and `.ConcurrencyPerJobMiB` (`Decl.C93_negative`). A file property that is given an alias of nothing is silently empty unless it is required (`Decl.C93_empty_alias`).
- C94: a required list of targets may be empty, unlike required arrays of strings (`Decl.C94_no_targets`). A target named twice is there twice though duplicates are meant to be removed: the tag is new for each name (`Decl.C94_repeated`).
- C95: `Alias('X') { .Targets = 'X' }` is accepted as an alias of nothing instead of being refused as a cycle (`Decl.C95_self`). Read: a header variable that is not a string fails an assertion (Function.cpp:244).
- C96: bytes from 128 are written as `\uFFFFFFC3` where `char` is signed (JSON.cpp passes it to `%04X`), so a path with ü is read back as another (`Compdb.C96_not_ascii`). An object list that uses `.CompilerInputObjectLists` fails an assertion in `ObjectListNode::EnumerateInputFiles`, without assertions its files are left out (`Compdb.C96_object_lists`). Only the first `%1` of an option is replaced, as in the build (C96_same).
- C97: the marks of the search are not reset between source files, so with more than one the search for the second finds nothing and the targets are built as if no source file had been given (`Source.C97_two`, `Source.C97_two_sources`). Nothing is missed (`Source.C97_covers`), but everything is built. Read: users of the file that are only pre-build dependencies are not found.
- C98: the value of `-sourcefile` is not put in quotes in the text handed to the wrapper processes: with a blank in it they see another file and a target (`C98_source_blank`). A quoted target, configuration or database path that ends with a backslash swallows the options behind it (`C98_target_backslash`). `-wsl` hands on arguments without quotes (`C98_wsl_blank`). So `C98_wrapper_partial` has the hypothesis `Item.Safe`.
- C98: `-cachetrim 0` does not trim the cache but starts a build of `all` (`C98_trim_zero`); text behind a number is ignored (`-j4x`, `C98_number_text`); anything that begins with `-report` and has no `=` is `-report` (`C98_report_name`).
- C99: a main process of the wrapper that is killed leaves its final process building. A build without wrapper started then takes the main mutex, so the two build in the same directory at once and the final process, which looks for that mutex to be free, never notices (`C99_two_builds`).
- C99: with a second build started with the wrapper instead, the final process left over writes to the memory of the second: the second may report the success of the first without having built anything (`C99_not_built`), or after its own final process was killed (`C99_old_result`).
- C99: a final process that dies before it has told that it has started leaves the main process waiting for ever, with the mutex, so nothing can be built there until it is killed (`C99_hang`, `C99_hang_reached`).
- C100: `CancelJobsWithUserData` purges pending and completed jobs and detaches those in flight, but not the lists of failed and aborted jobs, nor a job between `m_InFlightJobs` and `m_CompletedJobs`. `FinalizeCompletedJobs` looks for the client by the address of its state only. If a new client got the same address, the result goes to that client (`C100_wrong_client`, `C100_wrong_client_ok`), where the job index is not known.
- C100: a waiting job whose tool arrives on another connection between `CancelJobsWithUserData` and the removal of the client from `m_ClientList` is queued and built with a pointer to the freed state of the client, which `GetHostForJob` reads (`C100_dangling`).
- C101: outside of Windows no solution folder is ever put in its parent: folder paths are made with backslashes, and `WriteNestedProjects` looks for the native slash (`C101_folders_false`).
- C101: a project given with another case in `.SolutionFolders` or `.SolutionDependencies` is found, since nodes are found whatever the case, but is then left out of the folder and of the dependencies without a message; in `.SolutionBuildProject` it works (`C101_case_false`).
- C101: GUIDs have 32 bits of a CRC of the name, so different names can share one, e.g. any two that differ in `plumless` and `buckeroo` (`C101_guid_false`); nothing checks for it.
- C101: solution platforms `Win32` and `x86` become the same; the solution then has two mappings for one key (`C101_configs_false`); no error is given.
- C101: for a project without an extension in a directory with a dot, the end of the name is before its start (`C101_name_false`).
- C102: after an option with its value in the next argument, that argument is examined as an option too: `-I /Imports/x` gives the include paths `/Imports/x` and `mports/x` (`C102_options_false`); likewise a source or any path that starts with `/I` or `/D` counts as an option outside of Windows.
- C102: a warning option in two arguments, `-wd 4100`, gives the IDE `4100` alone (`C102_additional_false`).
- C102: an option whose value is one quote fails the assertion of `Trim` (`C102_quote_false`).
- C103: names of files, folders, references, imports and configurations are written into XML without escaping (only properties are escaped): a file `a&b.cpp` makes both files unreadable (`C103_read_false`).
- C103: with a command for compiling single files the project lists files as `ClCompile`, but the file of filters always lists them as `CustomBuild` (`C103_kinds_false`).
- C103: forced includes and additional options are not taken from the target if both definitions and include paths are given (`C103_forced_false`).
- C103: a folder whose 32-bit hash equals that of an earlier folder is not listed, nor are its parents (`C103_folders_false`).
- C103: the identifier of a project that is not in the working directory itself differs between Windows and other systems, against the comment in `FormatDeterministicProjectGUID`: the caller turns backslashes into slashes, and only other systems turn them back (`C103_guid_false`).
- C104: an empty piece in `FASTBUILD_BROKERAGE_PATH`, as after a trailing semicolon, names `/main/22.linux/` at the root of the file system (`C104_roots_false`).
- C104: a directory named twice lists its workers twice, and the client connects to them twice (`C104_twice_false`).
- C104: only addresses of the local machine are left out; a worker known by its host name is offered to its own machine (`C104_local_false`).
- C104: if deleting the file fails when a worker becomes unavailable, it is not tried again, and the worker stays listed until someone cleans up a day later (`C104_withdrawn_false`).
- C104: becoming unavailable restarts the ten seconds before a file is written, so a worker that is available nine seconds out of ten is never listed (`C104_announced_false`). A new worker is not listed for its first ten seconds either.
* C105: while the machine is little used the worker's own processes are not asked for their time, but the time of the machine is noted. The next full measurement divides their time since long ago by the time since the last call: their share may be several hundred percent. The machine then counts as idle although others use it fully (`C105_stale_false`), and in proportional mode the share is above 1, which uses no processor at all for some seconds (`C105_share_false`).
* C105: a process that ends between being listed and being asked has time 0; the unsigned difference to its last time is huge, and the machine is found idle (`C105_ended_false`).
* C105: a settings file that is cut off leaves the mode uninitialised (`C105_short_false`); a mode that is none of the four acts as dedicated (`C105_mode_false`); the first three bytes of the file are not checked.
* C105: if the machine is in use one time out of three, the judgement made before stays for ever (`C105_memory_false`).
* C106: `ThreadPool::ThreadFunc` looks at the queue and then at the flag to quit. A job given between the two, followed by the destructor, is dropped if every thread is there: the thread sees the flag and ends; the assertion in the destructor fails (`C106_lost_false`). Looking at the flag before the queue would avoid it.
- **C107 FileCopy on Linux** (FileIO.cpp:264-311): `sendfile` is called with an offset, so the position of the source does not move. If it fails with EINVAL or ENOSYS after it has copied a part, the loop with `read` starts at the first byte again but counts the bytes already copied. With 4096 of 8192 bytes copied the result is the first half twice and `true` is returned (`C107_copied_false`).
- **C107 symbolic links** (FileIO.cpp:231): a link that was copied cannot be copied again, since `symlink` fails when the destination exists; `allowOverwrite` is not heeded (`C107_link_again_false`). A copy of a link fails whenever it is rebuilt.
- **C107 ListDependencies**: the documentation says that only direct dependencies of the source are listed. The code lists the dependencies of the dependencies of the source, which are the expected ones for an object list; for an object, an executable or an alias of an object list the direct ones are missing (`C107_direct_false`). The documented `.SourcePattern` does not exist, the property is `.Patterns`.
- C108: `AString( uint32_t 0 )` marks the static empty string as memory that must be freed, so destroying it frees memory that was never allocated (`C108_reserve_zero_false`). `operator += ( const char * )` and `Append( const char *, size_t )` with a pointer into the string itself read freed memory whenever the string grows (`C108_append_own_false`; `operator += ( const AString & )` with itself is fine). For a length of 2^32-1 rounding up gives 0, so one byte is allocated (`C108_longest_false`). Moving a string to itself empties it (`C108_self_move`).
- C109: a job availability message that was put in its slot while the connection was being made is sent after the connection message, whose number is newer, and `m_NumJobsAvailableSentToClient` then holds the newer number. The worker may believe there are no jobs while the client believes it has told it of five, and nothing is sent until the number changes (`C109_told_false`).
- C109: the delay before another attempt to connect is started only if `Connect` fails. A worker that accepts the connection and closes it, for example because its protocol version is different, is connected to again with each pass of the loop, about once per millisecond (`C109_pause_false`).
- C109: all workers get the same `m_UniqueId`, the size of the list, although it is called an index for profiling (not modelled).
- **C110** `AString::FindLast( text )` without a start position fails its ASSERT if the text is longer than the string (`C110_find_last_long_false`), while `Find` just gives nothing. Two strings of the same length that agree up to a zero byte inside of them are equal (`C110_zero_false`).
- **C111** A time limit of a program is only looked at when there was nothing to read: a program that writes all the time is never stopped (`C111_timeout_false`). When the limit is reached only the program is killed (`kill( pid )`), not what it has started; stopping a build kills the process group.
- **C111** If `select` is interrupted by a signal in the pass after the end of the program, the output still in the pipe is lost (release builds; debug builds fail an ASSERT) (`C111_interrupted_false`).
- **C111** (not formalised) the pipes are made without `O_CLOEXEC`, so programs started by other threads meanwhile inherit the ends.
- **C112** (`C112_pch_false`, `C112_pch_overwritten_false`): `GetAltObjPath` and `GetNativeAnalysisXMLPath` use the
  name of the list's precompiled header object for every object of the list, not only for the precompiled header. With a
  Microsoft precompiled header, all objects of a list share one `.alt.obj` and one `.nativecodeanalysis.xml`: results
  from workers overwrite each other there, and the cache stores the precompiled header's files for each object.
- **C112** (`C112_unread_false`): a worker that can't read a file it should send reports a failed compilation, not a
  system error; the job isn't tried elsewhere. (`C112_corrupt_false`): the client ignores a failing `Decompress` of a
  result and takes the compressed data for the files, reading outside of the message.
- **C113** (`C113_again_false`, `C113_failed_false`): `CompilerInfoNode::DoBuild` appends to `m_BuiltinIncludePaths` without clearing it. The list is saved and migrated, so after the compiler was replaced the paths of the old one stay, and come before the new ones; after a failure the paths found so far are there twice. `C113_quote_false`: `Tokenize` honours quotes, so a path with one `"` swallows the lines after it. `C113_framework_false`: clang's remark `(framework directory)` becomes part of the path.
- **C114** (`C114_clang_version_false`): the version is stripped for gcc only and endings aren't anchored, so `clang++-17` is taken for gcc (it ends in `g++`), while `clang-17` isn't recognised. `C114_directory_false`: the version is what follows the last dash of the whole path, so `/opt/gcc-11/bin/nvcc` is gcc. `C114_case_false`: rcc and vbcc are compared with case, so `RCC.EXE` isn't recognised. `C114_ending_false`: `arcc`, `svc` and `sdcc` are taken for rcc, vbcc and gcc.
- **C115** (`C115_light_false`): an object for which the light cache was used, that missed and then was stored has both flags and is counted as a light store only, so `Misses: 1 (0 Light)` is shown. `C115_days_false`: the times are added up in 32 bits and wrap after 2^32 ms.
- C116 `C116_ids_false`: the configurations of the three lists of an Xcode project are numbered from 0, 100 and 200, so that with more than 100 configurations two objects share an identifier.
- C116 `C116_name_false`, `C116_arguments_false`, `C116_comment_false`: names of folders, configurations and of the project are written into `project.pbxproj` without the quoting that other values get, build arguments within quotes but not escaped, and a value beginning with `//` without quotes, where it reads as a comment. A folder named `My Files` makes the project unreadable.
- C116 `C116_tab_false`: tabs and line ends in scheme arguments are not escaped and become spaces when the XML is read.
- C117: an empty string in `.Environment` ends the environment of every program: variables after it are lost without a message (`C117_empty_false`).
- C117: with two `LIB=` entries the build looks for libraries in the last, programs in the first (`C117_lib_false`).
- C118: `.ConcurrencyLimit = 4294967295` gives the error that no limit was specified (`C118_taken_false`).
- C119: `RecordRemote` records the name of a worker only if its number is higher than all before; other workers stay without a name in the profile (`Profile.C119_name_false`).
- C119: `RegisterFoundWorkers` gives every worker the number of workers as `m_UniqueId`, so the profile shows the jobs of all workers under one (`Profile.C119_ids_false`).
- C120 (no effect reachable): `BFFVariable::SetValueStruct( Array && )` does not set the type of the variable (BFFVariable.cpp:225-243). It is reached only for a variable that is a struct already, since `StoreVariableStruct` checks the type before.
- C121: the test of the memory limit may be passed by several threads at once, and while the data of another job is taken off the total in the middle of `OwnData` (Job.cpp:93-112), so that more than `.DistributableJobMemoryLimitMiB` waits: with 1 MiB and two threads, two jobs of 1000000 bytes (`JobMem.C121_limit_exact_false`). The excess is at most one file per thread (`C121_limit`).
- C122: when an object is itself the target of a build with `-report`, `ASSERT( false )` of Report.cpp:146 fails (in a release build the object is missing in the report) (`Report.C122_target_false`).
- C123: a build with `-report=json` in which one library was built and another was up to date writes a file that is not JSON: a comma stays before the end of `CPU Time by Library` and `Includes` (JSONReport.cpp:449, 564, 612 compare with the number of all libraries) (`Report.C123_commas_false`; `C123_exact` gives exactly the cases that are right).
- C123: names in `Target(s)`, `Library` and `Library name` are not escaped (JSONReport.cpp:115, 335, 555): with a backslash in a path, as on Windows, the file is not JSON (`Report.C123_names_false`).
- C125: `PrintVarRecurse` escapes single quotes only (FunctionPrint.cpp:141, 157). A `^` or `$` in a string is written as it is, so the text reads back as another string (`C125_string_false`). An array of structs is written as a list of assignments in braces, which the language does not have (`C125_structs_false`). Names that need quotes are written without (`C125_name_false`).
- C126: an object that a library gets through two lists of objects is counted twice in the include statistics (Report.cpp:233-258 has no mark for nodes already seen), so a header can be included by more objects than there are (`Report.Incl.C126_twice_false`).
- C127: names of jobs are not escaped in the log for monitors (JobQueue.cpp:1016, Client.cpp:614): a file found on disk whose name has an end of line makes the log say something else (`Monitor.C127_name_false`). The time of a line is taken before the lock (FLog.cpp:105-107), so times in the log need not ascend.
- C128: the identifier of an external project is read once and saved; when the project file gets another one, the solution keeps the old one (VSProjectExternalNode.cpp:94-97) (`Ext.C128_stale_false`). With `</ProjectGuid>` before `<ProjectGuid>`, as in a comment, `Assign` gets an end before its begin (VSProjectExternalNode.cpp:126) (`Ext.C128_order_false`). When identifier, type and configurations are known, as after a build, a missing project file is a success (VSProjectExternalNode.cpp:76) (`Ext.C128_missing_false`).
- C129: the time of a node is added before it is checked whether it was seen (NodeGraph.cpp:1538-1557), so a header that a thousand objects need counts a thousand times in the progress (`Progress.C129_twice_false`). The sum stored for a node that failed has the time of the failed nodes below it, and is added as built (NodeGraph.cpp:1545-1547, 1573-1575) (`Progress.C129_failed_false`).
- C130: errors are looked for in all of the rest before warnings (Node.cpp:1157-1158), so a warning before an error keeps its colon (`Clean.C130_warning_false`). The word behind `error` is passed as the code even if it is `error` again, so `error error C1:` is kept (`Clean.C130_twice_false`). Of two colons one stays (`Clean.C130_two_false`). In each case MSBuild still finds the pattern that the function is there to remove.
- C131: `FixupPathForVSIntegration` looks for `: warning:` in all of the line before `: error:` (Node.cpp:899-903), so an error whose text has `: warning:` in it is not changed and cannot be followed in Visual Studio (`Fixup.C131_first_false`).

## Axioms per theorem

`#print axioms` for every theorem in MANIFEST.json shows a subset of `propext`, `Classical.choice`,
`Quot.sound`. No theorem uses another axiom. (Run: one `#print axioms` line per name after `import Verif`.)
