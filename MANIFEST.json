{
 "claims": [
  {
   "property": "C01",
   "status": "proved",
   "theorems": [
    "Verif.Sched.C01_deps_up_to_date_while_building"
   ],
   "note": "Any reachable state of any build; dependencies of a queued or running job are up to date and stay so."
  },
  {
   "property": "C02",
   "status": "proved",
   "theorems": [
    "Verif.Sched.C02_built_at_most_once"
   ],
   "note": "Queue log has no duplicates; completions have no duplicates."
  },
  {
   "property": "C03",
   "status": "proved",
   "theorems": [
    "Verif.Sched.C03_states_monotone"
   ],
   "note": ""
  },
  {
   "property": "C04",
   "status": "proved",
   "theorems": [
    "Verif.Sched.C04_failure_has_root_cause",
    "Verif.Sched.C04_build_failure_has_failed_target"
   ],
   "note": "Own failure is tied to an event of the trace."
  },
  {
   "property": "C05",
   "status": "partial",
   "theorems": [
    "Verif.Sched.C05_success_partial",
    "Verif.Sched.C05_success_full",
    "Verif.Sched.C05_discovered_dependency_not_built"
   ],
   "note": "Full closure proved when dependencies discovered by ObjectNode::Finalize are already up to date; without that the code violates the property (counterexample proved)."
  },
  {
   "property": "C06",
   "status": "proved",
   "theorems": [
    "Verif.Sched.C06_no_silent_stall",
    "Verif.Sched.C06_bounded_idle_sweeps"
   ],
   "note": ""
  },
  {
   "property": "C07",
   "status": "proved",
   "theorems": [
    "Verif.Sched.C07_cycle_check_exact",
    "Verif.Sched.C07_cycle_check_terminates"
   ],
   "note": ""
  },
  {
   "property": "C08",
   "status": "proved",
   "theorems": [
    "Verif.Sched.C08_sweep_terminates"
   ],
   "note": ""
  },
  {
   "property": "C09",
   "status": "partial",
   "theorems": [
    "Verif.Incr.C09_success_consistent_partial",
    "Verif.Incr.C09_incremental_equals_clean_partial",
    "Verif.Incr.C09_targets_equal_clean_partial",
    "Verif.Incr.C09_finalize_failure_stale"
   ],
   "note": "For all histories without a Finalize failure; with one the claim is false and the counterexample is proved."
  },
  {
   "property": "C10",
   "status": "proved",
   "theorems": [
    "Verif.Incr.C10_null_build"
   ],
   "note": ""
  },
  {
   "property": "C11",
   "status": "proved",
   "theorems": [
    "Verif.Incr.C11_rebuilt_iff",
    "Verif.Incr.C11_queued_has_reason",
    "Verif.Incr.C11_weak_change_no_rebuild"
   ],
   "note": ""
  },
  {
   "property": "C12",
   "status": "partial",
   "theorems": [
    "Verif.Incr.C12_unfinished_rebuilt_partial",
    "Verif.Incr.C12_killed_rebuilt",
    "Verif.Incr.C12_interruption_safe_partial",
    "Verif.Incr.C12_finalize_failure_forgotten"
   ],
   "note": "Finalize failures excluded; the counterexample for them is proved."
  },
  {
   "property": "C13",
   "status": "proved",
   "theorems": [
    "Verif.Jobs.C13_limit",
    "Verif.Jobs.C13_no_loss",
    "Verif.Jobs.C13_flush_moves",
    "Verif.Jobs.C13_progress",
    "Verif.Jobs.C13_limit_positive"
   ],
   "note": "All interleavings of the job queue model. The limit bound needs limit < worker threads, as the property says."
  },
  {
   "property": "C14",
   "status": "proved",
   "theorems": [
    "Verif.Jobs.C14_queue_sorted",
    "Verif.Jobs.C14_remove_max",
    "Verif.Jobs.C14_reachable_sorted"
   ],
   "note": "The unlocked peek at the queue length is not modelled."
  },
  {
   "property": "C15",
   "status": "proved",
   "theorems": [
    "Verif.Jobs.C15_exactly_once",
    "Verif.Jobs.C15_freed_unreachable"
   ],
   "note": "All interleavings of critical sections, release semantics of ASSERT."
  },
  {
   "property": "C16",
   "status": "partial",
   "theorems": [
    "Verif.Jobs.C16_not_lost",
    "Verif.Jobs.C16_assertions_outside_finalize",
    "Verif.Jobs.C16_no_assertion_partial",
    "Verif.Jobs.C16_freed_partial",
    "Verif.Jobs.C16_wait_ends",
    "Verif.Jobs.C16_disconnect_after_race_asserts",
    "Verif.Jobs.C16_return_after_failed_race_asserts"
   ],
   "note": "Not lost is proved for all interleavings. The assertion and freeing parts are false when the remote part of a raced job ends between the local completion and its finalisation (two counterexample theorems); proved for all other interleavings."
  },
  {
   "property": "C17",
   "status": "partial",
   "theorems": [
    "Verif.Str.C17_linux_partial",
    "Verif.Str.C17_linux_idempotent_partial",
    "Verif.Str.C17_linux_same_partial",
    "Verif.Str.C17_windows_partial",
    "Verif.Str.C17_windows_idempotent_partial",
    "Verif.Str.C17_relative",
    "Verif.Str.C17_network_prefix_lost",
    "Verif.Str.C17_doubled_slash",
    "Verif.Str.C17_long_path_cut"
   ],
   "note": "The full statement is false: network paths on Windows lose their prefix, a name starting with a backslash on Linux or a root working directory gives a doubled slash, and a path of 65536 or more characters is cut (each proved). The partial theorems cover everything else."
  },
  {
   "property": "C18",
   "status": "proved",
   "theorems": [
    "Verif.Cont.C18_find",
    "Verif.Cont.C18_unique"
   ],
   "note": "Any hash function and table size; names compared up to ASCII case. Hash hints passed by callers must be the hash of the name (hypothesis HintOk)."
  },
  {
   "property": "C19",
   "status": "partial",
   "theorems": [
    "Verif.Db.C19_roundtrip_partial",
    "Verif.Db.C19_truncated_out_of_bounds"
   ],
   "note": "Round trip proved. Rejection of truncated data is false at this level (read outside the buffer, proved); the content hash of the file protects against it (C21)."
  },
  {
   "property": "C20",
   "status": "proved",
   "theorems": [
    "Verif.Db.C20_roundtrip"
   ],
   "note": "Node pointers become indices; property tables arbitrary. The streaming hash is assumed to equal the one-shot hash."
  },
  {
   "property": "C21",
   "status": "proved",
   "theorems": [
    "Verif.Db.C21_crash",
    "Verif.Db.C21_start",
    "Verif.Db.C21_none",
    "Verif.Db.C21_altered_content",
    "Verif.Db.C21_altered_header",
    "Verif.Db.C21_other_version"
   ],
   "note": "No hash collision on the data at hand is a hypothesis."
  },
  {
   "property": "C22",
   "status": "partial",
   "theorems": [
    "Verif.IO.C22_roundtrip_lz4",
    "Verif.IO.C22_roundtrip_zstd",
    "Verif.IO.C22_in_bounds_partial",
    "Verif.IO.C22_stored_out_of_bounds",
    "Verif.IO.C22_four_gib"
   ],
   "note": "Round trip for every level and algorithm within the size limits, LZ4/zstd as parameters that restore what they compressed. In-bounds decompression of valid data excludes buffers marked as stored uncompressed with differing sizes, for which it is false (C22_stored_out_of_bounds)."
  },
  {
   "property": "C23",
   "status": "proved",
   "theorems": [
    "Verif.IO.C23_roundtrip",
    "Verif.IO.C23_problem",
    "Verif.IO.C23_transfer",
    "Verif.IO.C23_untrusted_out_of_bounds"
   ],
   "note": "Round trip, index errors and problem reporting for the at most four files CreateFromFiles accepts (more fail an assertion). Finding: extraction from a buffer not made by CreateFromFiles is not validated and can read out of bounds (C23_untrusted_out_of_bounds)."
  },
  {
   "property": "C24",
   "status": "partial",
   "theorems": [
    "Verif.IO.C24_chained",
    "Verif.IO.C24_size_partial",
    "Verif.IO.C24_size_wraps",
    "Verif.IO.C24_memory",
    "Verif.IO.C24_typed",
    "Verif.IO.C24_cut",
    "Verif.IO.C24_read"
   ],
   "note": "Content and typed round trip are proved in full. The size of a chained stream is exact below 4 GiB only; C24_size_wraps proves that it is wrong beyond (32-bit product)."
  },
  {
   "property": "C25",
   "status": "proved",
   "theorems": [
    "Verif.Str.C25_match",
    "Verif.Str.C25_matchI",
    "Verif.Str.C25_isWildcardMatch",
    "Verif.Str.C25_star"
   ],
   "note": "Matcher terminates and equals the textbook relation; ? excludes the dot as in the code."
  },
  {
   "property": "C26",
   "status": "proved",
   "theorems": [
    "Verif.Str.C26_distance",
    "Verif.Str.C26_distanceI",
    "Verif.Str.C26_metric",
    "Verif.Str.C26_capacity"
   ],
   "note": "At least one name shorter than 1024 characters; otherwise the assertion fails."
  },
  {
   "property": "C27",
   "status": "proved",
   "theorems": [
    "Verif.Str.C27_nearest",
    "Verif.Str.C27_explicit",
    "Verif.Str.C27_candidate_iff",
    "Verif.Str.C27_typo_not_suggested"
   ],
   "note": "Finding: a name differing by a substitution is never a candidate."
  },
  {
   "property": "C28",
   "status": "proved",
   "theorems": [
    "Verif.Crc.C28_calc",
    "Verif.Crc.C28_alignment",
    "Verif.Crc.C28_incremental",
    "Verif.Crc.C28_lower",
    "Verif.Crc.C28_detects_burst"
   ],
   "note": ""
  },
  {
   "property": "C29",
   "status": "proved",
   "theorems": [
    "Verif.Str.C29_tokenRanges",
    "Verif.Str.C29_tokenize",
    "Verif.Str.C29_removeQuotes"
   ],
   "note": "Separator other than quote and backslash."
  },
  {
   "property": "C30",
   "status": "proved",
   "theorems": [
    "Verif.Str.C30_replace",
    "Verif.Str.C30_replace_empty",
    "Verif.Str.C30_replace_pieces",
    "Verif.Str.C30_replaceChar"
   ],
   "note": "Strings shorter than 2^32 - 1 (the length type)."
  },
  {
   "property": "C31",
   "status": "proved",
   "theorems": [
    "Verif.Str.C31_linux",
    "Verif.Str.C31_any",
    "Verif.Str.C31_none"
   ],
   "note": "Base path without doubled slashes."
  },
  {
   "property": "C32",
   "status": "proved",
   "theorems": [
    "Verif.Str.C32_folder",
    "Verif.Str.C32_folder_idempotent",
    "Verif.Str.C32_file",
    "Verif.Str.C32_trailing",
    "Verif.Str.C32_empty_is_root"
   ],
   "note": "Windows keeps a leading network double slash, as the code intends."
  },
  {
   "property": "C33",
   "status": "proved",
   "theorems": [
    "Verif.Mem.C33_disjoint",
    "Verif.Mem.C33_alloc",
    "Verif.Mem.C33_free"
   ],
   "note": "Byte-level memory with the free list inside the free blocks; alignments are powers of two; pages handed out by the system are fresh and aligned (the code asserts the alignment)."
  },
  {
   "property": "C34",
   "status": "proved",
   "theorems": [
    "Verif.Cont.C34_find",
    "Verif.Cont.C34_assert"
   ],
   "note": "Any hash function. The debug check in Insert is characterised by C34_assert."
  },
  {
   "property": "C35",
   "status": "proved",
   "theorems": [
    "Verif.Sort.C35_shellSort_sorts",
    "Verif.Sort.C35_shellSort_perm"
   ],
   "note": ""
  },
  {
   "property": "C36",
   "status": "proved",
   "theorems": [
    "Verif.Cont.C36_refines",
    "Verif.Cont.C36_start",
    "Verif.Cont.C36_precondition",
    "Verif.Cont.C36_limit",
    "Verif.Cont.C36_two",
    "Verif.Cont.C36_append_own"
   ],
   "note": "Finding C36_append_own: appending an own element by reference while growing reads a destroyed object."
  },
  {
   "property": "C37",
   "status": "partial",
   "theorems": [
    "Verif.Server.C37_bound_partial",
    "Verif.Server.C37_bound_untorn",
    "Verif.Server.C37_offered",
    "Verif.Server.C37_torn_read"
   ],
   "note": "For every interleaving of counter accesses the bound is CPUs + 1 + number of connections; the stated bound holds when a received job moves between the counters in one step. Violated otherwise: FindNeedyClients can read the counters in between (witness proved)."
  },
  {
   "property": "C38",
   "status": "partial",
   "theorems": [
    "Verif.Server.C38_queued_complete",
    "Verif.Server.C38_once",
    "Verif.Server.C38_at_most_once",
    "Verif.Server.C38_started",
    "Verif.Server.C38_served_partial",
    "Verif.Server.C38_delivery",
    "Verif.Server.C38_manifest_present",
    "Verif.Server.C38_manifest_missing",
    "Verif.Server.C38_no_assert",
    "Verif.Server.C38_disconnect_no_assert",
    "Verif.Server.C38_stuck",
    "Verif.Server.C38_stuck_reached",
    "Verif.Server.C38_abandoned",
    "Verif.Server.C38_abandoned_reached",
    "Verif.Server.C38_handover_assert"
   ],
   "note": "Queued only when complete, no job lost or queued twice, waiting jobs of a complete tool are started: all interleavings. That a waiting job is always being served holds only without interrupted disconnections, and not when the manifest itself was never received; both failures are proved (C38_stuck, C38_abandoned, C38_handover_assert)."
  },
  {
   "property": "C39",
   "status": "proved",
   "theorems": [
    "Verif.Net.C39_roundtrip",
    "Verif.Net.C39_other_tool",
    "Verif.Net.C39_accepted",
    "Verif.Net.C39_present",
    "Verif.Net.C39_environment",
    "Verif.Net.C39_cut_partial",
    "Verif.Net.C39_cut_accepted",
    "Verif.Net.C39_zero_hash_refused"
   ],
   "note": "Manifest with at least one hashed file; the environment block is filled byte by byte with the extra terminators AString::Copy writes. Findings: the number of variables is read unchecked, so a manifest cut there is accepted without its environment; a file whose hash is 0 can never be synchronised."
  },
  {
   "property": "C40",
   "status": "proved",
   "theorems": [
    "Verif.Net.C40_distinct",
    "Verif.Net.C40_refused",
    "Verif.Net.C40_location",
    "Verif.Net.C40_nested_accepted"
   ],
   "note": "Every list accepted by CompilerNode::Initialize. Finding: a path may still be a directory of another."
  },
  {
   "property": "C41",
   "status": "proved",
   "theorems": [
    "Verif.Net.C41_prefix",
    "Verif.Net.C41_all",
    "Verif.Net.C41_messages",
    "Verif.Net.C41_wellformed",
    "Verif.Net.C41_four_gib",
    "Verif.Net.C41_short_frame"
   ],
   "note": "For messages whose frames together are below 4 GiB; above, sizes wrap (C41_four_gib). The twelve messages of the protocol are laid out byte by byte. Finding: frames are cast to messages without a size check (C41_short_frame)."
  },
  {
   "property": "C42",
   "status": "proved",
   "theorems": [
    "Verif.Jobs.C42_bounded_retries",
    "Verif.Jobs.C42_retry_or_fail"
   ],
   "note": "At most two retries."
  },
  {
   "property": "C43",
   "status": "proved",
   "theorems": [
    "Verif.Mem.C43_disjoint",
    "Verif.Mem.C43_alloc",
    "Verif.Mem.C43_free",
    "Verif.Mem.C43_foreign"
   ],
   "note": "Operations are atomic in the model (each bucket has a mutex); the race of two threads for the last page index is not modelled."
  },
  {
   "property": "C44",
   "status": "proved",
   "theorems": [
    "Verif.Db.C44_reparse_iff",
    "Verif.Db.C44_moved"
   ],
   "note": "Content compared by hash as in the code."
  },
  {
   "property": "C45",
   "status": "partial",
   "theorems": [
    "Verif.Net.C45_error_noticed_partial",
    "Verif.Net.C45_close_missed"
   ],
   "note": "Errors are always noticed. An orderly close is missed forever if an earlier read of the connection found nothing (C45_close_missed): errno is consulted although recv returned 0."
  },
  {
   "property": "C46",
   "status": "partial",
   "theorems": [
    "Verif.Net.C46_file",
    "Verif.Net.C46_manifest_partial",
    "Verif.Net.C46_tool_id",
    "Verif.Net.C46_migrated_size_lost",
    "Verif.Net.C46_tool_id_ignores_environment"
   ],
   "note": "Proved for new compilers and for entries kept from earlier builds. Violated after migration to a regenerated graph: the recorded size is lost (proved). The environment is not part of the tool id (proved)."
  },
  {
   "property": "C47",
   "status": "proved",
   "theorems": [
    "Verif.Unity.C47_each_file_once",
    "Verif.Unity.C47_nounity",
    "Verif.Unity.C47_isolated_reason",
    "Verif.Unity.C47_isolated_limit",
    "Verif.Unity.C47_endsWithFile",
    "Verif.Unity.C47_balanced_exact",
    "Verif.Unity.C47_no_star_loses_files"
   ],
   "note": "For every float arithmetic. Needs a * in the output name: C47_no_star_loses_files shows what happens without. C47_balanced_exact: even spread under exact arithmetic."
  },
  {
   "property": "C48",
   "status": "proved",
   "theorems": [
    "Verif.Unity.C48_listing",
    "Verif.Unity.C48_order",
    "Verif.Unity.C48_order_independent",
    "Verif.Unity.C48_case_matters"
   ],
   "note": "C48_case_matters shows the proviso about case is needed."
  },
  {
   "property": "C49",
   "status": "partial",
   "theorems": [
    "Verif.Unity.C49_stamp_partial",
    "Verif.Unity.C49_toggle",
    "Verif.Unity.C49_forced_unnoticed"
   ],
   "note": "Missing: Unity with .UnityInputIsolatedFiles, for which C49_forced_unnoticed proves the claim false in the code."
  },
  {
   "property": "C50",
   "status": "proved",
   "theorems": [
    "Verif.Bff.BoolExp.C50_condition",
    "Verif.Bff.BoolExp.C50_unambiguous",
    "Verif.Bff.BoolExp.C50_terminates",
    "Verif.Bff.BoolExp.C50_no_precedence",
    "Verif.Bff.BoolExp.C50_dangling_asserts",
    "Verif.Bff.BoolExp.C50_number_closes",
    "Verif.Bff.BoolExp.C50_surplus_ignored"
   ],
   "note": "Balanced and Clean are explicit hypotheses; C50_number_closes and C50_surplus_ignored show what happens without them."
  },
  {
   "property": "C51",
   "status": "proved",
   "theorems": [
    "Verif.Bff.Interp.C51_terminates",
    "Verif.Bff.Interp.C51_recursion",
    "Verif.Bff.Interp.C51_number_asserts",
    "Verif.Bff.Interp.C51_bracket_asserts",
    "Verif.Bff.Interp.C51_header_asserts",
    "Verif.Bff.Interp.C51_alias_asserts",
    "Verif.Bff.Interp.C51_overflow"
   ],
   "note": "All token sequences. That files with certain mistakes (and .A = 123) fail an assertion instead of being reported is shown by witnesses; the statement allows it."
  },
  {
   "property": "C52",
   "status": "proved",
   "theorems": [
    "Verif.Bff.Interp.C52_proper",
    "Verif.Bff.Interp.C52_scope",
    "Verif.Bff.Interp.C52_function"
   ],
   "note": "Using is excepted from C52_function, as its purpose is to add variables to the scope around it."
  },
  {
   "property": "C53",
   "status": "proved",
   "theorems": [
    "Verif.Bff.Interp.C53_caller",
    "Verif.Bff.Interp.C53_params",
    "Verif.Bff.Interp.C53_args",
    "Verif.Bff.Interp.C53_isolated",
    "Verif.Bff.Interp.C53_capture"
   ],
   "note": "C53_capture: without the condition on the names of arguments the claim is false (witness)."
  },
  {
   "property": "C54",
   "status": "proved",
   "theorems": [
    "Verif.Bff.Interp.C54_foreach",
    "Verif.Bff.Interp.C54_frozen"
   ],
   "note": "The freeze counter is an uint8_t: a loop that lists one array 256 times is outside (assertion 'count' in the model)."
  },
  {
   "property": "C55",
   "status": "proved",
   "theorems": [
    "Verif.Bff.Lex.C55_subst",
    "Verif.Bff.Lex.C55_error",
    "Verif.Bff.Lex.C55_import",
    "Verif.Bff.Lex.C55_import_value"
   ],
   "note": "values shorter than 2 GiB for #import"
  },
  {
   "property": "C56",
   "status": "proved",
   "theorems": [
    "Verif.Bff.Lex.C56_condition",
    "Verif.Bff.Lex.C56_bounds",
    "Verif.Bff.Lex.C56_number_brackets"
   ],
   "note": "assumes that no environment variable has a value whose hash is 0"
  },
  {
   "property": "C57",
   "status": "proved",
   "theorems": [
    "Verif.Bff.Lex.C57_terminates",
    "Verif.Bff.Lex.C57_extends",
    "Verif.Bff.Lex.C57_once",
    "Verif.Bff.Lex.C57_once_asserts"
   ],
   "note": ""
  },
  {
   "property": "C58",
   "status": "proved",
   "theorems": [
    "Verif.Bff.Lex.C58_text",
    "Verif.Bff.Lex.C58_line",
    "Verif.Bff.Lex.C58_unique",
    "Verif.Bff.Lex.C58_octal",
    "Verif.Bff.Lex.C58_minus",
    "Verif.Bff.Lex.C58_single_and"
   ],
   "note": "decimal numbers only; what other numbers do is shown by C58_octal"
  },
  {
   "property": "C59",
   "status": "proved",
   "theorems": [
    "Verif.Bff.Lex.C59_recorded",
    "Verif.Bff.Lex.C59_complete"
   ],
   "note": "assumes that no hash is 0 and that no two values of one variable collide; files are compared by text"
  },
  {
   "property": "C60",
   "status": "proved",
   "theorems": [
    "Verif.Bff.Lex.C60_selected",
    "Verif.Bff.Lex.C60_endif",
    "Verif.Bff.Lex.C60_elif",
    "Verif.Bff.Lex.C60_else"
   ],
   "note": "directives inside blocks begin their line"
  },
  {
   "property": "C61",
   "status": "partial",
   "theorems": [
    "Verif.Mig.C61_sound",
    "Verif.Mig.C61_rules_kept",
    "Verif.Mig.C61_cascades",
    "Verif.Mig.C61_history",
    "Verif.Mig.C61_equals_clean_partial",
    "Verif.Mig.C61_terminates"
   ],
   "note": "Everything is proved for all inputs except that equality with a clean build inherits the exclusion of Finalize failures from C09."
  },
  {
   "property": "C62",
   "status": "proved",
   "theorems": [
    "Verif.Mig.C62_unchanged",
    "Verif.Mig.C62_null_build"
   ],
   "note": "Hypotheses on found nodes (SameBuild): they can be described again from their recorded properties."
  },
  {
   "property": "C63",
   "status": "proved",
   "theorems": [
    "Verif.Cache.C63_id_injective",
    "Verif.Cache.C63_path_injective",
    "Verif.Cache.C63_tmp_distinct",
    "Verif.Cache.C63_found_by_scan"
   ],
   "note": "Identifiers and paths as lists of characters; keys over their full bit width."
  },
  {
   "property": "C64",
   "status": "partial",
   "theorems": [
    "Verif.Cache.C64_retrieve_partial",
    "Verif.Cache.C64_entry_partial",
    "Verif.Cache.C64_publish_partial",
    "Verif.Cache.C64_stable_partial",
    "Verif.Cache.C64_one_publisher",
    "Verif.Cache.C64_overlap_violates"
   ],
   "note": "Proved when publishers of the same identifier do not overlap in time (in particular if each identifier has one publisher). Without this the claim is false: C64_overlap_violates, because both use the same temporary file."
  },
  {
   "property": "C65",
   "status": "proved",
   "theorems": [
    "Verif.Cache.C65_within",
    "Verif.Cache.C65_limit",
    "Verif.Cache.C65_no_more_than_needed",
    "Verif.Cache.C65_oldest_first"
   ],
   "note": "For files sorted by time (C35); the sum of sizes is assumed to fit 64 bits."
  },
  {
   "property": "C66",
   "status": "proved",
   "theorems": [
    "Verif.Cache.C66_msvc_cached",
    "Verif.Cache.C66_msvc_distributed",
    "Verif.Cache.C66_gcc",
    "Verif.Cache.C66_allowed",
    "Verif.Cache.C66_should_use",
    "Verif.Cache.C66_objectiveCpp_distributed",
    "Verif.Cache.C66_quoted_not_recognised"
   ],
   "note": "Exact conditions on the list of options. Findings: Objective-C++ and quoted options are not recognised."
  },
  {
   "property": "C67",
   "status": "partial",
   "theorems": [
    "Verif.Cache.C67_fits_iff",
    "Verif.Cache.C67_five_files",
    "Verif.Cache.C67_distinct",
    "Verif.Cache.C67_which"
   ],
   "note": "Holds except for exactly one combination of options, for which it is false (C67_five_files)."
  },
  {
   "property": "C68",
   "status": "partial",
   "theorems": [
    "Verif.Cache.C68_hit_partial"
   ],
   "note": "Same restriction on overlapping publishers as C64."
  },
  {
   "property": "C69",
   "status": "proved",
   "theorems": [
    "Verif.Incl.C69_gcc",
    "Verif.Incl.C69_gcc_fails",
    "Verif.Incl.C69_headers_partial",
    "Verif.Incl.C69_escaped_windows",
    "Verif.Incl.C69_raw_string",
    "Verif.Incl.C69_escaped_quote"
   ],
   "note": "The markers are those of the text: C69_raw_string and C69_escaped_quote show where the text itself misleads. C69_headers_partial adds the list of C72 and needs hashes without collisions."
  },
  {
   "property": "C70",
   "status": "partial",
   "theorems": [
    "Verif.Incl.C70_show",
    "Verif.Incl.C70_show_mem",
    "Verif.Incl.C70_network_not_found",
    "Verif.Incl.C70_unterminated"
   ],
   "note": "Exact for paths on a drive; the code does not find headers on network shares (C70_network_not_found) and ignores an unterminated last line (C70_unterminated)."
  },
  {
   "property": "C71",
   "status": "proved",
   "theorems": [
    "Verif.Incl.C71_preprocessed",
    "Verif.Incl.C71_fails"
   ],
   "note": ""
  },
  {
   "property": "C72",
   "status": "partial",
   "theorems": [
    "Verif.Incl.C72_list_partial",
    "Verif.Incl.C72_list_mem_partial",
    "Verif.Incl.C72_collision_drops",
    "Verif.Incl.C72_zero_drops"
   ],
   "note": "Proved if the 32 bit hashes of the names in use differ and are not 0; otherwise headers are lost (C72_collision_drops, C72_zero_drops)."
  },
  {
   "property": "C73",
   "status": "partial",
   "theorems": [
    "Verif.Light.C73_ends",
    "Verif.Light.C73_include_partial",
    "Verif.Light.C73_macro_partial",
    "Verif.Light.C73_define_partial",
    "Verif.Light.C73_behind_comment",
    "Verif.Light.C73_include_next",
    "Verif.Light.C73_slash",
    "Verif.Light.C73_continued"
   ],
   "note": "The code misses directives behind a comment on the line and some rare sequences; shown by concrete texts. Everything else is found."
  },
  {
   "property": "C74",
   "status": "partial",
   "theorems": [
    "Verif.Light.C74_closed_partial",
    "Verif.Light.C74_files",
    "Verif.Light.C74_ends",
    "Verif.Light.C74_directory",
    "Verif.Light.C74_two_values",
    "Verif.Light.C74_defined_later",
    "Verif.Light.C74_two_parents",
    "Verif.Light.C74_gcc"
   ],
   "note": "The code follows only the first value of a macro and visits a header for one parent only; shown by concrete trees. Proved under Local and OneValue."
  },
  {
   "property": "C75",
   "status": "partial",
   "theorems": [
    "Verif.Light.C75_sound_partial",
    "Verif.Light.C75_forced_include",
    "Verif.Light.C75_command_line",
    "Verif.Light.C75_order"
   ],
   "note": "The code ignores -include and macros from the command line; shown. Proved under the hypotheses of C74."
  },
  {
   "property": "C76",
   "status": "partial",
   "theorems": [
    "Verif.Light.C76_cache_partial",
    "Verif.Light.C76_filled",
    "Verif.Light.C76_error_lost",
    "Verif.Light.C76_generated",
    "Verif.Light.C76_uninitialised"
   ],
   "note": "The code lets errors, missing files and unset hashes leak between objects; shown. Proved for caches without these."
  },
  {
   "property": "C77",
   "status": "proved",
   "theorems": [
    "Verif.Args.C77_words",
    "Verif.Args.C77_compile",
    "Verif.Args.C77_defined",
    "Verif.Args.C77_ordinary",
    "Verif.Args.C77_second_kept",
    "Verif.Args.C77_unclosed"
   ],
   "note": "Words as an independent description (Forwarded) which is shown to be unique; the last two theorems are where this description itself departs from what a user may expect: one placeholder per token, and a quote after a backslash."
  },
  {
   "property": "C78",
   "status": "proved",
   "theorems": [
    "Verif.Args.C78_reaches",
    "Verif.Args.C78_once",
    "Verif.Args.C78_torn",
    "Verif.Args.C78_swallowed",
    "Verif.Args.C78_twice"
   ],
   "note": "Explicit exceptions in the statement; the last three theorems show that the exceptions are real."
  },
  {
   "property": "C79",
   "status": "partial",
   "theorems": [
    "Verif.Args.C79_sent",
    "Verif.Args.C79_same_partial",
    "Verif.Args.C79_lost"
   ],
   "note": "Proved for option lines in which options with a value have one that does not look like an option (Tidy). Without this the code fails: /I path loses its path on a worker (C79_lost)."
  },
  {
   "property": "C80",
   "status": "proved",
   "theorems": [
    "Verif.Args.C80_direct",
    "Verif.Args.C80_error",
    "Verif.Args.C80_no_assertion",
    "Verif.Args.C80_file",
    "Verif.Args.C80_blanks",
    "Verif.Args.C80_escape",
    "Verif.Args.C80_mode",
    "Verif.Args.C80_worker"
   ],
   "note": "C80_worker records that the settings of a compiler do not reach a worker."
  },
  {
   "property": "C81",
   "status": "partial",
   "theorems": [
    "Verif.Args.C81_options_partial",
    "Verif.Args.C81_off",
    "Verif.Args.C81_deoptimized"
   ],
   "note": "Fails for files compiled with other options while writable (C81_deoptimized); proved for builds that do not use this feature."
  },
  {
   "property": "C82",
   "status": "partial",
   "theorems": [
    "Verif.Dirs.C82_files_partial",
    "Verif.Dirs.C82_dirs_partial",
    "Verif.Dirs.C82_sorted",
    "Verif.Dirs.C82_order"
   ],
   "note": "For trees without directories whose names begin with two dots; these are left out by the code (C82_dotdot). Everything else in full."
  },
  {
   "property": "C83",
   "status": "partial",
   "theorems": [
    "Verif.Dirs.C83_windows",
    "Verif.Dirs.C83_stamp",
    "Verif.Dirs.C83_flat_partial"
   ],
   "note": "In full on Windows; elsewhere for lists of one directory. Recursive lists on Linux and macOS can collide (C83_collision)."
  },
  {
   "property": "C84",
   "status": "partial",
   "theorems": [
    "Verif.Dirs.C84_copies",
    "Verif.Dirs.C84_exact_partial",
    "Verif.Dirs.C84_succeeds"
   ],
   "note": "Names up to case as nodes are found; exact when no two names in play differ only in case (C84_case shows the difference)."
  },
  {
   "property": "C85",
   "status": "partial",
   "theorems": [
    "Verif.Dirs.C85_objects",
    "Verif.Dirs.C85_exact_partial",
    "Verif.Dirs.C85_name",
    "Verif.Dirs.C85_loose_name",
    "Verif.Dirs.C85_distinct",
    "Verif.Dirs.C85_defined"
   ],
   "note": "Names up to case as nodes are found; exact when no two names in play differ only in case (C85_case shows the difference)."
  },
  {
   "property": "C86",
   "status": "proved",
   "theorems": [
    "Verif.Dirs.C86_only",
    "Verif.Dirs.C86_gone",
    "Verif.Dirs.C86_all",
    "Verif.Dirs.C86_excluded"
   ],
   "note": "C86_all is for trees without directories whose names begin with two dots, which directory lists leave out (C82_dotdot)."
  },
  {
   "property": "C87",
   "status": "proved",
   "theorems": [
    "Verif.Link.C87_library",
    "Verif.Link.C87_linked",
    "Verif.Link.C87_objects",
    "Verif.Link.C87_order",
    "Verif.Link.C87_once",
    "Verif.Link.C87_once_library",
    "Verif.Link.C87_refused"
   ],
   "note": "All trees of nodes. Names of libraries are taken to mean one thing (Consistent), as in the graph."
  },
  {
   "property": "C88",
   "status": "proved",
   "theorems": [
    "Verif.Link.C88_linker",
    "Verif.Link.C88_library",
    "Verif.Link.C88_exec",
    "Verif.Link.C88_cs"
   ],
   "note": "The relation of tokens to words has exactly one solution, and that is what is on the command line. Findings: one kind of placeholder per token, placeholders inside tokens."
  },
  {
   "property": "C89",
   "status": "partial",
   "theorems": [
    "Verif.Link.C89_defined",
    "Verif.Link.C89_dependencies_partial",
    "Verif.Link.C89_defaults_kept"
   ],
   "note": "Missing: default libraries named twice of which one is ignored (C89_ignored_once shows the code keeps the other); options that end where a value is needed are read out of bounds (C89_out_of_bounds)."
  },
  {
   "property": "C90",
   "status": "partial",
   "theorems": [
    "Verif.Link.C90_link",
    "Verif.Link.C90_tool",
    "Verif.Link.C90_exec",
    "Verif.Link.C90_stdout_partial",
    "Verif.Link.C90_test"
   ],
   "note": "Missing: the output of an Exec when writing fails; the code does not notice (C90_stdout_lost)."
  },
  {
   "property": "C91",
   "status": "proved",
   "theorems": [
    "Verif.Link.C91_incremental",
    "Verif.Link.C91_cleanup"
   ],
   "note": "All options. Finding: the extension is taken from the last dot of the whole path."
  },
  {
   "property": "C92",
   "status": "proved",
   "theorems": [
    "Verif.Bff.Value.C92_struct",
    "Verif.Bff.Value.C92_struct_names",
    "Verif.Bff.Value.C92_plain",
    "Verif.Bff.Value.C92_plus",
    "Verif.Bff.Value.C92_new",
    "Verif.Bff.Value.C92_assign",
    "Verif.Bff.Value.C92_minus",
    "Verif.Bff.Value.C92_literal",
    "Verif.Bff.Value.C92_array",
    "Verif.Bff.Value.C92_types",
    "Verif.Bff.Value.C92_open_structs"
   ],
   "note": "for strings below 2^32-1 characters; the one case where literal and variable differ is shown as a finding"
  },
  {
   "property": "C93",
   "status": "proved",
   "theorems": [
    "Verif.Decl.C93_strs",
    "Verif.Decl.C93_str",
    "Verif.Decl.C93_missing",
    "Verif.Decl.C93_bool",
    "Verif.Decl.C93_int",
    "Verif.Decl.C93_uint",
    "Verif.Decl.C93_class",
    "Verif.Decl.C93_structs",
    "Verif.Decl.C93_embed",
    "Verif.Decl.C93_nodes",
    "Verif.Decl.C93_graph",
    "Verif.Decl.C93_negative",
    "Verif.Decl.C93_empty_alias"
   ],
   "note": "for all graphs without two nodes of the same name; findings for negative numbers and empty aliases"
  },
  {
   "property": "C94",
   "status": "proved",
   "theorems": [
    "Verif.Decl.C94_accepted",
    "Verif.Decl.C94_list",
    "Verif.Decl.C94_other",
    "Verif.Decl.C94_inputs",
    "Verif.Decl.C94_firsts",
    "Verif.Decl.C94_no_targets",
    "Verif.Decl.C94_repeated"
   ],
   "note": "for names for which cleaning is idempotent and respects case (shown for Linux in C95_linux)"
  },
  {
   "property": "C95",
   "status": "proved",
   "theorems": [
    "Verif.Decl.C95_define",
    "Verif.Decl.C95_known_header",
    "Verif.Decl.C95_known_output",
    "Verif.Decl.C95_used",
    "Verif.Decl.C95_file",
    "Verif.Decl.C95_alias_init",
    "Verif.Decl.C95_alias",
    "Verif.Decl.C95_linux",
    "Verif.Decl.C95_self"
   ],
   "note": "Initialize of other nodes is a parameter that must keep graphs in order; self-dependency of an alias is a finding"
  },
  {
   "property": "C96",
   "status": "partial",
   "theorems": [
    "Verif.Compdb.C96_database_partial",
    "Verif.Compdb.C96_defined",
    "Verif.Compdb.C96_same",
    "Verif.Compdb.C96_not_ascii",
    "Verif.Compdb.C96_object_lists"
   ],
   "note": "C96_database_partial for names of plain bytes (below 128 where char is signed); C96_not_ascii and C96_object_lists show where the code falls short. C96_same for tokens without %3, %4 and without a quote behind %."
  },
  {
   "property": "C97",
   "status": "partial",
   "theorems": [
    "Verif.Source.C97_one_partial",
    "Verif.Source.C97_unknown",
    "Verif.Source.C97_covers",
    "Verif.Source.C97_two",
    "Verif.Source.C97_two_sources"
   ],
   "note": "Only users are built for a single source file; for more than one the code falls back to the targets (C97_two), so that part of the claim is false there. That nothing is missed is proved for all lists."
  },
  {
   "property": "C98",
   "status": "partial",
   "theorems": [
    "Verif.Cmd.C98_meaning",
    "Verif.Cmd.C98_build",
    "Verif.Cmd.C98_wsl",
    "Verif.Cmd.C98_wrapper_partial",
    "Verif.Cmd.C98_source_blank",
    "Verif.Cmd.C98_target_backslash",
    "Verif.Cmd.C98_wsl_blank",
    "Verif.Cmd.C98_trim_zero",
    "Verif.Cmd.C98_number_text",
    "Verif.Cmd.C98_report_name"
   ],
   "note": "Acceptance and meaning of every command line proved in both directions. The part about wrapper processes is false for values with blanks (source files) or a backslash at the end (quoted values): proved with witnesses; partial theorem for values without."
  },
  {
   "property": "C99",
   "status": "partial",
   "theorems": [
    "Verif.Procs.C99_kinds",
    "Verif.Procs.C99_exclusive_partial",
    "Verif.Procs.C99_result_partial",
    "Verif.Procs.C99_stored",
    "Verif.Procs.C99_hang",
    "Verif.Procs.C99_hang_reached",
    "Verif.Procs.C99_two_builds",
    "Verif.Procs.C99_not_built",
    "Verif.Procs.C99_old_result"
   ],
   "note": "False if a main process of the wrapper is killed (witnesses proved). Proved for all executions in which main and intermediate processes are not killed; and in all executions for builds of the same kind."
  },
  {
   "property": "C100",
   "status": "partial",
   "theorems": [
    "Verif.Worker.C100_one_holder",
    "Verif.Worker.C100_lists",
    "Verif.Worker.C100_one_result",
    "Verif.Worker.C100_not_lost",
    "Verif.Worker.C100_own_client_partial",
    "Verif.Worker.C100_wrong_client",
    "Verif.Worker.C100_wrong_client_ok",
    "Verif.Worker.C100_dangling"
   ],
   "note": "The code can answer a job to another client whose state has the same address, so that part is proved for addresses that are not used again; the rest holds in full. Counterexamples proved."
  },
  {
   "property": "C101",
   "status": "partial",
   "theorems": [
    "Verif.Sln.C101_entries",
    "Verif.Sln.C101_configs_partial",
    "Verif.Sln.C101_folders_partial",
    "Verif.Sln.C101_items",
    "Verif.Sln.C101_dependencies_partial",
    "Verif.Sln.C101_name_partial",
    "Verif.Sln.C101_guid_false",
    "Verif.Sln.C101_folders_false",
    "Verif.Sln.C101_case_false",
    "Verif.Sln.C101_configs_false",
    "Verif.Sln.C101_name_false"
   ],
   "note": "Full claim is false of the code (folders are not nested outside of Windows; projects named with another case are left out; GUIDs and keys can collide), each with a witness. Proved: entries and items in full; configurations if GUIDs and solution configurations differ; folders on Windows and by exact name; dependencies by exact name."
  },
  {
   "property": "C102",
   "status": "partial",
   "theorems": [
    "Verif.Ide.C102_options_partial",
    "Verif.Ide.C102_code_partial",
    "Verif.Ide.C102_additional_partial",
    "Verif.Ide.C102_light",
    "Verif.Ide.says_unique",
    "Verif.Ide.C102_options_false",
    "Verif.Ide.C102_additional_false",
    "Verif.Ide.C102_quote_false"
   ],
   "note": "Full claim is false of the code: a value in an argument of its own is read again as an option (witness). Proved for every line whose separate values do not start with one of the same options."
  },
  {
   "property": "C103",
   "status": "partial",
   "theorems": [
    "Verif.Vcx.C103_files_partial",
    "Verif.Vcx.C103_configs_partial",
    "Verif.Vcx.C103_properties_partial",
    "Verif.Vcx.C103_filters_partial",
    "Verif.Vcx.C103_filters_written",
    "Verif.Vcx.Example.C103_guid_partial",
    "Verif.Vcx.Example.C103_read_false",
    "Verif.Vcx.Example.C103_kinds_false",
    "Verif.Vcx.Example.C103_forced_false",
    "Verif.Vcx.Example.C103_folders_false",
    "Verif.Vcx.Example.C103_guid_false"
   ],
   "note": "Proved for the whole text of both files through an independent XML reader, provided names need no escaping and hashes of folders differ. False without these; witnesses given."
  },
  {
   "property": "C104",
   "status": "partial",
   "theorems": [
    "Verif.Broker.C104_roots",
    "Verif.Broker.C104_given",
    "Verif.Broker.C104_found",
    "Verif.Broker.C104_none",
    "Verif.Broker.C104_announced_partial",
    "Verif.Broker.C104_withdrawn_partial",
    "Verif.Broker.C104_told",
    "Verif.Broker.C104_one",
    "Verif.Broker.C104_ended",
    "Verif.Broker.C104_offered_partial",
    "Verif.Broker.C104_hidden_partial",
    "Verif.Broker.C104_clean",
    "Verif.Broker.C104_clean_due",
    "Verif.Broker.Example.C104_roots_false",
    "Verif.Broker.Example.C104_twice_false",
    "Verif.Broker.Example.C104_local_false",
    "Verif.Broker.Example.C104_withdrawn_false",
    "Verif.Broker.Example.C104_announced_false"
   ],
   "note": "Directories, clients, cleaning and the end of a worker in full. A worker has its file when it is asked ten seconds after the last change, not earlier: one that is unavailable now and then may never have it (C104_announced_false). It has no file while unavailable if deleting succeeds; a failed deletion is not tried again (C104_withdrawn_false)."
  },
  {
   "property": "C105",
   "status": "partial",
   "theorems": [
    "Verif.Usage.C105_stale_false",
    "Verif.Usage.C105_share_false",
    "Verif.Usage.C105_ended_false",
    "Verif.Usage.C105_memory_false",
    "Verif.Usage.C105_short_false",
    "Verif.Usage.C105_mode_false",
    "Verif.Usage.C105_idle",
    "Verif.Usage.C105_busy",
    "Verif.Usage.C105_idle_only",
    "Verif.Usage.C105_start",
    "Verif.Usage.C105_share",
    "Verif.Usage.C105_share_down",
    "Verif.Usage.C105_share_up",
    "Verif.Usage.C105_measure_partial",
    "Verif.Usage.C105_asked",
    "Verif.Usage.C105_limit",
    "Verif.Usage.C105_none",
    "Verif.Usage.C105_disabled",
    "Verif.Usage.C105_when_idle",
    "Verif.Usage.C105_dedicated",
    "Verif.Usage.C105_proportional_partial",
    "Verif.Usage.C105_available",
    "Verif.Usage.C105_threads",
    "Verif.Usage.C105_taken",
    "Verif.Usage.C105_saved",
    "Verif.Usage.C105_version",
    "Verif.Usage.C105_defaults",
    "Verif.Usage.C105_bound",
    "Verif.Usage.C105_option_bound",
    "Verif.Usage.C105_cpus_number",
    "Verif.Usage.C105_cpus_all_but",
    "Verif.Usage.C105_cpus_percent",
    "Verif.Usage.C105_cpus_refused",
    "Verif.Usage.C105_options",
    "Verif.Usage.C105_override"
   ],
   "note": "Missing: what one measurement says is what the worker's processes spent since they were last asked, which may be long ago (C105_stale_false), so the share may be above 1 and no processor is used (C105_share_false); a process that ends makes its share huge (C105_ended_false); the judgement may depend on measurements any time ago (C105_memory_false); mode in a settings file is not checked (C105_mode_false, C105_short_false). Percentages are exact rationals instead of floats."
  },
  {
   "property": "C106",
   "status": "partial",
   "theorems": [
    "Verif.Pool.C106_lost_false",
    "Verif.Pool.C106_order",
    "Verif.Pool.C106_once",
    "Verif.Pool.C106_woken",
    "Verif.Pool.C106_moves",
    "Verif.Pool.C106_not_stuck",
    "Verif.Pool.C106_ends",
    "Verif.Pool.C106_over",
    "Verif.Pool.C106_done_partial"
   ],
   "note": "Missing: a job given after the last look at the queue of every thread and before the destructor begins is never run (C106_lost_false shows it with one thread); C106_done_partial excludes that window. Both users of the pool wait for their jobs before destroying it. Jobs with a null function and memory ordering are not modelled."
  },
  {
   "property": "C107",
   "status": "partial",
   "theorems": [
    "Verif.Copy.C107_copies",
    "Verif.Copy.C107_apart",
    "Verif.Copy.C107_refused",
    "Verif.Copy.C107_copied_partial",
    "Verif.Copy.C107_only_there",
    "Verif.Copy.C107_link",
    "Verif.Copy.C107_text",
    "Verif.Copy.C107_text_read",
    "Verif.Copy.C107_listed",
    "Verif.Copy.C107_in_order",
    "Verif.Copy.C107_each_node_once",
    "Verif.Copy.C107_copied_false",
    "Verif.Copy.C107_link_again_false",
    "Verif.Copy.C107_direct_false"
   ],
   "note": "Partial: the bytes of a copy are proved equal to the source unless sendfile becomes unavailable after it has copied a part; then the copy can be wrong and be reported as a success (C107_copied_false). A symbolic link cannot be copied twice (C107_link_again_false). Contrary to the documentation direct dependencies are not listed (C107_direct_false). FileCopy is that of Linux; sorting is a parameter (C35)."
  },
  {
   "property": "C108",
   "status": "partial",
   "theorems": [
    "Verif.AStr.C108_strings",
    "Verif.AStr.C108_own",
    "Verif.AStr.C108_no_leak",
    "Verif.AStr.C108_append_own_partial",
    "Verif.AStr.C108_few_allocations",
    "Verif.AStr.C108_self_move",
    "Verif.AStr.C108_reserve_zero_false",
    "Verif.AStr.C108_append_own_false",
    "Verif.AStr.C108_longest_false"
   ],
   "note": "Refinement for all sequences of operations from heap and stack memory to sequences of bytes. Partial: pointers into the string itself are only covered when there is room (shown to fail otherwise), reserving zero bytes and 2^32-1 bytes fail. Printf-like formatting and Tokenize are not part of this model."
  },
  {
   "property": "C109",
   "status": "partial",
   "theorems": [
    "Verif.Client.C109_connections",
    "Verif.Client.C109_new_connections",
    "Verif.Client.C109_all_tried",
    "Verif.Client.C109_availability",
    "Verif.Client.C109_no_assert",
    "Verif.Client.C109_each_job_once",
    "Verif.Client.C109_ledger",
    "Verif.Client.C109_lost_connection",
    "Verif.Client.C109_denied",
    "Verif.Client.C109_result",
    "Verif.Client.C109_attempts",
    "Verif.Client.C109_fifo",
    "Verif.Client.C109_awake",
    "Verif.Client.C109_told_again",
    "Verif.Client.C109_told_partial",
    "Verif.Client.C109_told_false",
    "Verif.Client.C109_pause_false"
   ],
   "note": "All but the last sentence holds in full. What the client thinks it has told a worker can be wrong if jobs are offered while the connection is being made (C109_told_false); it is right otherwise (C109_told_partial). The pause of ten seconds does not hold for workers that answer and then close the connection (C109_pause_false)."
  },
  {
   "property": "C110",
   "status": "partial",
   "theorems": [
    "Verif.StrFind.C110_equal",
    "Verif.StrFind.C110_compare",
    "Verif.StrFind.C110_order",
    "Verif.StrFind.C110_equal_letters",
    "Verif.StrFind.C110_small_letters",
    "Verif.StrFind.C110_find",
    "Verif.StrFind.C110_find_chars",
    "Verif.StrFind.C110_find_char",
    "Verif.StrFind.C110_find_last_partial",
    "Verif.StrFind.C110_find_last_char",
    "Verif.StrFind.C110_begins_ends",
    "Verif.StrFind.C110_begins_ends_char",
    "Verif.StrFind.C110_zero_false",
    "Verif.StrFind.C110_find_last_long_false"
   ],
   "note": "Missing: looking for the last place of a text longer than the string fails an ASSERT (a release build finds nothing), and == and BeginsWith stop at a zero byte inside of strings. strcmp/strcasecmp as the standard has them."
  },
  {
   "property": "C111",
   "status": "partial",
   "theorems": [
    "Verif.Proc.C111_arguments",
    "Verif.Proc.C111_environment",
    "Verif.Proc.C111_descriptors",
    "Verif.Proc.C111_output",
    "Verif.Proc.C111_all_output_partial",
    "Verif.Proc.C111_at_end",
    "Verif.Proc.C111_never_stuck",
    "Verif.Proc.C111_ends",
    "Verif.Proc.C111_abort",
    "Verif.Proc.C111_timeout_partial",
    "Verif.Proc.C111_status",
    "Verif.Proc.C111_running",
    "Verif.Proc.C111_interrupted_false",
    "Verif.Proc.C111_timeout_false"
   ],
   "note": "Linux only. Missing: output read when select is interrupted by a signal (C111_interrupted_false); a program that writes all the time never runs too long (C111_timeout_false). Sizes do not overflow 32 bits; the pipes get descriptors above 2."
  },
  {
   "property": "C112",
   "status": "partial",
   "theorems": [
    "Verif.Transfer.C112_job",
    "Verif.Transfer.C112_source",
    "Verif.Transfer.C112_source_plain",
    "Verif.Transfer.C112_language",
    "Verif.Transfer.C112_same_name",
    "Verif.Transfer.C112_result",
    "Verif.Transfer.C112_files_partial",
    "Verif.Transfer.C112_failed",
    "Verif.Transfer.C112_cache",
    "Verif.Transfer.C112_pch_false",
    "Verif.Transfer.C112_pch_overwritten_false",
    "Verif.Transfer.C112_unread_false",
    "Verif.Transfer.C112_corrupt_false"
   ],
   "note": "False for objects of lists with a precompiled header: their alternative objects and analysis results all get one name. Unreadable files on a worker aren't a system error; damaged compressed results are read out of bounds."
  },
  {
   "property": "C113",
   "status": "partial",
   "theorems": [
    "Verif.CompInfo.C113_added",
    "Verif.CompInfo.C113_paths_partial",
    "Verif.CompInfo.C113_none",
    "Verif.CompInfo.C113_unexpected",
    "Verif.CompInfo.C113_failed",
    "Verif.CompInfo.C113_asked",
    "Verif.CompInfo.C113_again_false",
    "Verif.CompInfo.C113_failed_false",
    "Verif.CompInfo.C113_quote_false",
    "Verif.CompInfo.C113_framework_false"
   ],
   "note": "The paths of a node that has none yet, of output without quotes in paths, for all outputs. The list isn't cleared before: after the compiler was replaced the paths of before stay and come first (witness); a path with a quote swallows the rest of the list, and remarks on framework directories become part of the path (witnesses)."
  },
  {
   "property": "C114",
   "status": "partial",
   "theorems": [
    "Verif.Family.C114_given",
    "Verif.Family.C114_unknown",
    "Verif.Family.C114_usual",
    "Verif.Family.C114_others_partial",
    "Verif.Family.C114_lower_partial",
    "Verif.Family.C114_gcc_version",
    "Verif.Family.C114_directory_false",
    "Verif.Family.C114_clang_version_false",
    "Verif.Family.C114_case_false",
    "Verif.Family.C114_ending_false"
   ],
   "note": "Given names and the usual executables for all directories. Witnesses: below a directory gcc-11 any compiler that isn't checked before gcc is gcc; clang++-17 is taken for gcc and clang-17 isn't recognised; rcc and vbcc only in lower case; other programs with the same ending are mistaken."
  },
  {
   "property": "C115",
   "status": "proved",
   "theorems": [
    "Verif.Stats.C115_ends",
    "Verif.Stats.C115_row",
    "Verif.Stats.C115_proxy",
    "Verif.Stats.C115_totals",
    "Verif.Stats.C115_time",
    "Verif.Stats.C115_expensive",
    "Verif.Stats.C115_shown",
    "Verif.Stats.C115_light_false",
    "Verif.Stats.C115_days_false",
    "Verif.Report.Sorting.C115_sort"
   ],
   "note": "All graphs with finitely many nodes; counts and times modulo 2^32. Sorting is a parameter that sorts. Witnesses: an object that missed the light cache and was stored isn't counted as a light miss; the times wrap after 50 days."
  },
  {
   "property": "C116",
   "status": "partial",
   "theorems": [
    "Verif.Xcode.C116_setting_partial",
    "Verif.Xcode.C116_array_partial",
    "Verif.Xcode.C116_name_partial",
    "Verif.Xcode.C116_arguments_partial",
    "Verif.Xcode.C116_argument_partial",
    "Verif.Xcode.C116_comment_false",
    "Verif.Xcode.C116_name_false",
    "Verif.Xcode.C116_arguments_false",
    "Verif.Xcode.C116_tab_false",
    "Verif.Xcode.C116_references",
    "Verif.Xcode.C116_ids_partial",
    "Verif.Xcode.C116_root",
    "Verif.Xcode.C116_configurations",
    "Verif.Xcode.C116_files",
    "Verif.Xcode.C116_once",
    "Verif.Xcode.C116_shown",
    "Verif.Xcode.C116_ids_false",
    "Verif.Xcode.C116_each"
   ],
   "note": "References, tree, files and configuration lists in full. Identifiers unique up to 100 configurations (ids_false beyond). Settings read back unless they begin with two slashes; names of folders, configurations and project only if they need no quotes, build arguments only without quotes and backslashes (each with a _false). The fixed text between the fields is not modelled."
  },
  {
   "property": "C117",
   "status": "partial",
   "theorems": [
    "Verif.Settings.C117_safe",
    "Verif.Settings.C117_settings_partial",
    "Verif.Settings.C117_own_partial",
    "Verif.Settings.C117_inherits",
    "Verif.Settings.C117_loaded",
    "Verif.Settings.C117_lib_partial",
    "Verif.Settings.C117_nolib",
    "Verif.Settings.C117_empty_false",
    "Verif.Settings.C117_lib_false"
   ],
   "note": "An empty text among the variables ends the environment early (C117_empty_false); with two LIB variables the build uses the last although programs find the first (C117_lib_false)."
  },
  {
   "property": "C118",
   "status": "partial",
   "theorems": [
    "Verif.Settings.C118_taken_partial",
    "Verif.Settings.C118_index",
    "Verif.Settings.C118_limit",
    "Verif.Settings.C118_default",
    "Verif.Settings.C118_named",
    "Verif.Settings.C118_taken_false"
   ],
   "note": "An explicit limit of 2^32-1 jobs is refused as if there were no limit (C118_taken_false); everything else is proved in full."
  },
  {
   "property": "C119",
   "status": "partial",
   "theorems": [
    "Verif.Profile.C119_json_partial",
    "Verif.Profile.C119_events",
    "Verif.Profile.C119_named",
    "Verif.Profile.C119_name_partial",
    "Verif.Profile.C119_name_false",
    "Verif.Profile.C119_ids_false"
   ],
   "note": "Strings without bytes from 128 on where char is signed (finding of C96); names of workers and processor are not escaped. A worker's name is only right if its number is the highest so far (C119_name_false), and the client gives all workers the same number (C119_ids_false)."
  },
  {
   "property": "C120",
   "status": "proved",
   "theorems": [
    "Verif.Bff.Names.C120_reached",
    "Verif.Bff.Names.C120_reached_parent",
    "Verif.Bff.Names.C120_ready",
    "Verif.Bff.Using.C120_using",
    "Verif.Bff.Using.C120_parent",
    "Verif.Bff.Using.C120_error",
    "Verif.Bff.Using.C120_values",
    "Verif.Bff.Using.C120_distinct",
    "Verif.Bff.Using.C120_again",
    "Verif.Bff.Using.C120_seen"
   ],
   "note": "C120_using and C120_parent assume different names in the scope and the struct and no frozen variable; C120_ready takes these from the invariants that hold after every statement (C52_proper and C124_statement), and C120_reached states the result with these alone."
  },
  {
   "property": "C121",
   "status": "proved",
   "theorems": [
    "Verif.JobMem.C121_total",
    "Verif.JobMem.C121_bounds",
    "Verif.JobMem.C121_faults",
    "Verif.JobMem.C121_buffers",
    "Verif.JobMem.C121_end",
    "Verif.JobMem.C121_limit",
    "Verif.JobMem.C121_limit_exact_false"
   ],
   "note": "Steps of OwnData interleave freely; the limit alone is not a bound (C121_limit_exact_false). The test after a miss of the light cache (ObjectNode.cpp:417) decides only whether data is made at all and is not an event of its own."
  },
  {
   "property": "C122",
   "status": "partial",
   "theorems": [
    "Verif.Report.C122_ends",
    "Verif.Report.C122_libraries",
    "Verif.Report.C122_safe",
    "Verif.Report.C122_total",
    "Verif.Report.C122_parts",
    "Verif.Report.C122_target_false",
    "Verif.Report.Sorting.C122_sort"
   ],
   "note": "Each object is in one library where objects belong to libraries; it is in none where an object is itself the target (assertion fails, C122_target_false). Counters are natural numbers."
  },
  {
   "property": "C123",
   "status": "partial",
   "theorems": [
    "Verif.Report.C123_json_partial",
    "Verif.Report.C123_exact",
    "Verif.Report.C123_strings",
    "Verif.Report.C123_commas_false",
    "Verif.Report.C123_names_false"
   ],
   "note": "Exactly when the report is JSON is proved (C123_exact) for names that need no escapes; it is not when a library is left out of a section, or a target or library name has a backslash. Numbers with decimals are left open; white space is left out."
  },
  {
   "property": "C124",
   "status": "proved",
   "theorems": [
    "Verif.Bff.Names.C124_run",
    "Verif.Bff.Names.C124_kept",
    "Verif.Bff.Names.C124_statement",
    "Verif.Bff.Names.C124_base"
   ],
   "note": "Over the evaluator of C51 (tokens after the preprocessor). C124_base shows that the hypothesis about the built-in variables is needed."
  },
  {
   "property": "C125",
   "status": "partial",
   "theorems": [
    "Verif.Bff.Print.C125_back",
    "Verif.Bff.Print.C125_same",
    "Verif.Bff.Print.C125_file",
    "Verif.Bff.Print.C125_string_false",
    "Verif.Bff.Print.C125_number_false",
    "Verif.Bff.Print.C125_structs_false",
    "Verif.Bff.Print.C125_types_false",
    "Verif.Bff.Print.C125_name_false"
   ],
   "note": "For values that can be written (Writable): false for strings with ^ or $, numbers whose lowest byte is 91 or 123, arrays of structs, members with the name of a visible variable of another type, and names that need quotes (each with a witness). Depth of structs up to the limit of the parser."
  },
  {
   "property": "C126",
   "status": "partial",
   "theorems": [
    "Verif.Report.Incl.C126_list",
    "Verif.Report.Incl.C126_objects_partial",
    "Verif.Report.Incl.C126_total",
    "Verif.Report.Incl.C126_twice_false",
    "Verif.Report.Sorting.C126_sort",
    "Verif.Report.Sorting.C126_report"
   ],
   "note": "Proved outright: each header once, ordered, number = mentions over all ways to an object, PCH mark, independence of hashes, a list for each graph without cycles. Missing because the code does not have it: an object that can be reached in two ways is counted twice (C126_twice_false); with one way to each object the number is that of objects (C126_objects_partial)."
  },
  {
   "property": "C127",
   "status": "partial",
   "theorems": [
    "Verif.Monitor.C127_read",
    "Verif.Monitor.C127_live",
    "Verif.Monitor.C127_same",
    "Verif.Monitor.C127_name_false",
    "Verif.Monitor.C127_quote_false"
   ],
   "note": "Proved for all events whose names have no end of line or null character and whose workers have no space, with any messages. Missing because the code does not have it: names are written as they are, and one with an end of line makes the log say something else (C127_name_false). Quotes of messages cannot be told from single quotes (C127_quote_false; noted in the code)."
  },
  {
   "property": "C128",
   "status": "partial",
   "theorems": [
    "Verif.Ext.C128_guid",
    "Verif.Ext.C128_ok",
    "Verif.Ext.C128_fails",
    "Verif.Ext.C128_kept",
    "Verif.Ext.C128_configs",
    "Verif.Ext.C128_stale_false",
    "Verif.Ext.C128_order_false",
    "Verif.Ext.C128_missing_false"
   ],
   "note": "Proved: identifier of the first build, success, failure, identifier of the build file kept, configurations. Missing because the code does not have it: after a change of the file the old identifier stays (C128_stale_false); tags in the wrong order give a range with its end before its begin (C128_order_false); a missing file is not noticed when all is known (C128_missing_false)."
  },
  {
   "property": "C129",
   "status": "partial",
   "theorems": [
    "Verif.Progress.C129_sums",
    "Verif.Progress.C129_done",
    "Verif.Progress.C129_stored",
    "Verif.Progress.C129_ends",
    "Verif.Progress.C129_estimate",
    "Verif.Progress.C129_shown",
    "Verif.Progress.C129_twice_false",
    "Verif.Progress.C129_failed_false"
   ],
   "note": "Proved: the sums, all built exactly when done (if what earlier estimates stored was stored with all below up to date), the shown percentage never goes back and stays below the limit. Missing because the code does not have it: a node needed by two others counts twice (C129_twice_false); below a failed node, failed nodes count as built from the second estimate on (C129_failed_false)."
  },
  {
   "property": "C130",
   "status": "partial",
   "theorems": [
    "Verif.Clean.C130_colons",
    "Verif.Clean.C130_kept",
    "Verif.Clean.C130_errors_partial",
    "Verif.Clean.C130_warnings_partial",
    "Verif.Clean.C130_mixed_partial",
    "Verif.Clean.C130_warning_false",
    "Verif.Clean.C130_twice_false",
    "Verif.Clean.C130_two_false"
   ],
   "note": "Proved for messages of errors with warnings only behind the last error. Removing every pattern that MSBuild finds, as the comment in the code says, is false: witnesses for a warning before an error, for the word error twice, and for two colons."
  },
  {
   "property": "C131",
   "status": "partial",
   "theorems": [
    "Verif.Fixup.C131_rest",
    "Verif.Fixup.C131_colons",
    "Verif.Fixup.C131_commas",
    "Verif.Fixup.C131_snc",
    "Verif.Fixup.C131_mnt",
    "Verif.Fixup.C131_safe",
    "Verif.Fixup.C131_first_false"
   ],
   "note": "Proved when the line has only one of the tags of a kind. With more than one the line may stay as it is: the tags are looked for in a fixed order and not by place (witness). For the third style (VBCC) only that no assertion fails is proved."
  }
 ]
}