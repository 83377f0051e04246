{
 "claims": [
  {
   "property": "C01",
   "status": "proved",
   "theorems": [
    "Sid.Props.C01_base64_round_trip"
   ],
   "note": "Any non-empty byte string; text equals the RFC 4648 text."
  },
  {
   "property": "C02",
   "status": "proved",
   "theorems": [
    "Sid.Props.C02_base64_ignores_foreign",
    "Sid.Props.C02_base64_round_trip_with_junk"
   ],
   "note": ""
  },
  {
   "property": "C03",
   "status": "proved",
   "theorems": [
    "Sid.Props.C03_encoded_len_zero",
    "Sid.Props.C03_encoded_len_exact",
    "Sid.Props.C03_encode_refusals",
    "Sid.Props.C03_decode_refusals"
   ],
   "note": ""
  },
  {
   "property": "C04",
   "status": "proved",
   "theorems": [
    "Sid.Props.C04_bitmap_is_set_of_positions",
    "Sid.Props.C04_out_of_range_changes_nothing",
    "Sid.Props.C04_create_zero",
    "Sid.Props.C04_truncation_beyond_2_37"
   ],
   "note": "Sizes up to 2^37 bits; C04_truncation_beyond_2_37 shows what happens beyond."
  },
  {
   "property": "C05",
   "status": "proved",
   "theorems": [
    "Sid.Props.C05_get_data_returns_content",
    "Sid.Props.C05_add_returns_start_offset"
   ],
   "note": ""
  },
  {
   "property": "C06",
   "status": "proved",
   "theorems": [
    "Sid.Props.C06_allocation_within_limit",
    "Sid.Props.C06_plain_unconditional",
    "Sid.Props.C06_add_accepted_iff",
    "Sid.Props.C06_reset_init_overflow_counterexample",
    "Sid.Props.C06_limit_without_step_is_undefined"
   ],
   "note": "In size-prefix mode the claim needs every reset_init to fit its own limit including the prefix; the counterexample theorem shows why. A limit without a step is undefined behaviour (division by zero)."
  },
  {
   "property": "C07",
   "status": "partial",
   "theorems": [
    "Sid.Props.C07_read_moves_bound_memory_counterexample",
    "Sid.Props.C07_adds_refused_while_bound_partial",
    "Sid.Props.C07_memory_stable_while_bound_partial",
    "Sid.Props.C07_lower_get_data_counterexample",
    "Sid.Props.C07_refused_reset_counterexample",
    "Sid.Props.C07_empty_unbind_keeps_mark"
   ],
   "note": "Adds are refused and memory is stable under the stated discipline; three counterexample theorems show calls that break the claim as stated (lower get_data, refused reset_init, read)."
  },
  {
   "property": "C08",
   "status": "proved",
   "theorems": [
    "Sid.Props.C08_framed_message_survives_fragmentation",
    "Sid.Props.C08_enough_reads_complete",
    "Sid.Props.C08_truncated",
    "Sid.Props.C08_truncated_read",
    "Sid.Props.C08_sender_to_receiver"
   ],
   "note": ""
  },
  {
   "property": "C09",
   "status": "proved",
   "theorems": [
    "Sid.Props.C09_reads_stay_within_message",
    "Sid.Props.C09_all_messages_delivered",
    "Sid.Props.C09_big_initial_size_counterexample"
   ],
   "note": "Readers with step 1 and initial size not above the payload (all readers in the code); counterexample for bigger initial sizes."
  },
  {
   "property": "C10",
   "status": "proved",
   "theorems": [
    "Sid.Props.C10_write_all_exact",
    "Sid.Props.C10_write_all_terminates",
    "Sid.Props.C10_enodata_counterexample",
    "Sid.Props.C10_vector_write_all_exact",
    "Sid.Props.C10_empty_items_never_return"
   ],
   "note": "Linear and vector buffers; the descriptor must not report ENODATA itself (counterexample)."
  },
  {
   "property": "C11",
   "status": "partial",
   "theorems": [
    "Sid.Props.C11_items_kept_partial",
    "Sid.Props.C11_add_appends_partial",
    "Sid.Props.C11_bound",
    "Sid.Props.C11_zero_fill_counterexample",
    "Sid.Props.C11_zero_fill_prefix_undefined",
    "Sid.Props.C11_get_data_from_bad_address"
   ],
   "note": "Zero-filled adds wipe the first items (counterexamples); everything else proved under that guard."
  },
  {
   "property": "C12",
   "status": "partial",
   "theorems": [
    "Sid.Props.C12_hash_is_finite_map_partial",
    "Sid.Props.C12_other_keys_untouched",
    "Sid.Props.C12_add_keeps_old_length_counterexample",
    "Sid.Props.C12_nested_add_counterexample",
    "Sid.Props.C12_update_with_additions",
    "Sid.Props.C12_created_size",
    "Sid.Props.C12_huge_hint_never_returns"
   ],
   "note": "Partial: hash_add over an existing key keeps the old length (counterexample theorem); a callback adding an entry in the same slot makes the update overwrite it (counterexample theorem); everything else proved for all histories."
  },
  {
   "property": "C13",
   "status": "proved",
   "theorems": [
    "Sid.Props.C13_iteration_complete"
   ],
   "note": "Same histories as C12."
  },
  {
   "property": "C14",
   "status": "proved",
   "theorems": [
    "Sid.Props.C14_lists_hold_their_sequences",
    "Sid.Props.C14_no_stray_writes",
    "Sid.Props.C14_safe_iteration"
   ],
   "note": "Any number of lists at once, arbitrary initial memory; also the deletion-safe loop."
  },
  {
   "property": "C15",
   "status": "proved",
   "theorems": [
    "Sid.Props.C15_tree_is_map",
    "Sid.Props.C15_orders",
    "Sid.Props.C15_update_sees_stored"
   ],
   "note": ""
  },
  {
   "property": "C16",
   "status": "proved",
   "theorems": [
    "Sid.Props.C16_tree_balanced"
   ],
   "note": ""
  },
  {
   "property": "C17",
   "status": "partial",
   "theorems": [
    "Sid.Props.C17_whole",
    "Sid.Props.C17_prefix",
    "Sid.Props.C17_range_partial",
    "Sid.Props.C17_range_covers",
    "Sid.Props.C17_range_start_counterexample"
   ],
   "note": "Whole and prefix iteration are exact for all trees. A range is exact when its start is open or a stored key; with a start that is not stored the range begins at the first key of the leaf, so smaller keys are reported (C17_range_start_counterexample); C17_range_covers bounds the excess."
  },
  {
   "property": "C18",
   "status": "partial",
   "theorems": [
    "Sid.Props.C18_aliases_partial",
    "Sid.Props.C18_reference_count",
    "Sid.Props.C18_delete_removes_one_name",
    "Sid.Props.C18_delete_alias_counterexample"
   ],
   "note": "Full refinement for histories that remove only the least name of a record. Removing another name takes the first pointer to the record out of the leaf, which shifts the records of the keys in between (C18_delete_alias_counterexample). Reference count = number of names, and the set of names after a delete, hold for all histories."
  },
  {
   "property": "C19",
   "status": "proved",
   "theorems": [
    "Sid.Props.C19_backend_bptree",
    "Sid.Props.C19_backend_hash",
    "Sid.Props.C19_get_reports_history",
    "Sid.Props.C19_get_after_set",
    "Sid.Props.C19_get_after_unset"
   ],
   "note": "Proved for both backends (B+ tree of any order, hash table of any size), without aliases (aliases: C18). Values are kept by identity; a destroyed value that is looked at is undefined behaviour, and the theorems show it does not happen. Memory allocation is assumed to succeed."
  },
  {
   "property": "C20",
   "status": "proved",
   "theorems": [
    "Sid.Props.C20_refused_set",
    "Sid.Props.C20_accepted_set",
    "Sid.Props.C20_unset",
    "Sid.Props.C20_seen_in_transaction"
   ],
   "note": "Callbacks are arbitrary functions of the stored and the new value. Outside of transactions without restriction; within a transaction for keys that were not unset in it. A negative answer of a set callback also stores the new value (kvs.c:412 tests r for nonzero), which the specification states."
  },
  {
   "property": "C21",
   "status": "partial",
   "theorems": [
    "Sid.Props.C21_rollback_partial",
    "Sid.Props.C21_set_twice_counterexample",
    "Sid.Props.C21_archive_twice_counterexample",
    "Sid.Props.C21_unset_archive_counterexample"
   ],
   "note": "Partial: holds if no key is written twice in the transaction and unsets in it have no archive. Counterexamples without the guard: set twice leaves the intermediate value, archived twice releases a value twice, unset with archive leaves the archive key behind."
  },
  {
   "property": "C22",
   "status": "partial",
   "theorems": [
    "Sid.Props.C22_commit_partial",
    "Sid.Props.C22_unset_then_set_counterexample"
   ],
   "note": "Partial: holds if a key that is unset in the transaction is not used again in it. Counterexample without the guard: unset then set of one key loses the new value at commit."
  },
  {
   "property": "C23",
   "status": "proved",
   "theorems": [
    "Sid.Props.C23_set_archives",
    "Sid.Props.C23_unset_archives"
   ],
   "note": "Outside of transactions without restriction (archive key different from the key); with C22 also after a committed transaction."
  },
  {
   "property": "C24",
   "status": "proved",
   "theorems": [
    "Sid.Props.C24_children_in_order",
    "Sid.Props.C24_iteration_in_order"
   ],
   "note": ""
  },
  {
   "property": "C25",
   "status": "proved",
   "theorems": [
    "Sid.Props.C25_resources_live_as_specified",
    "Sid.Props.C25_destroyed_with_the_last_reference",
    "Sid.Props.C25_cycle_counterexample",
    "Sid.Props.C25_failed_creation_counterexample"
   ],
   "note": "All histories that keep to the rules of Spec.Res.World.Ok. Counterexamples for the two rules that the code does not check: attaching a resource below itself, and a failing initializer whose child is referred to by others."
  },
  {
   "property": "C26",
   "status": "partial",
   "theorems": [
    "Sid.Props.C26_search_sound_and_complete_partial",
    "Sid.Props.C26_wide_search_exact",
    "Sid.Props.C26_wide_crosses_boundary_counterexample"
   ],
   "note": "All methods; for WIDE_DFS and GENUS only if no attached resource with children is marked as not to be walked into. Counterexample and exact description of the wide search included."
  },
  {
   "property": "C27",
   "status": "partial",
   "theorems": [
    "Sid.Props.C27_counter_bounds_calls_partial",
    "Sid.Props.C27_at_most_n_more_partial",
    "Sid.Props.C27_child_counterexample",
    "Sid.Props.C27_wrap_counterexample"
   ],
   "note": "Handlers of child process sources must not return a positive number and a source without limit must not fire 2^64-1 times; counterexamples for both."
  },
  {
   "property": "C28",
   "status": "proved",
   "theorems": [
    "Sid.Props.C28_decompose_compose",
    "Sid.Props.C28_read_back",
    "Sid.Props.C28_unique"
   ],
   "note": ""
  },
  {
   "property": "C29",
   "status": "partial",
   "theorems": [
    "Sid.Props.C29_isolation_partial",
    "Sid.Props.C29_get_finds_set",
    "Sid.Props.C29_apart_from_daemon_partial",
    "Sid.Props.C29_counterexample",
    "Sid.Props.C29_names_of_daemon_refused"
   ],
   "note": "Holds for module names and device identifiers without the separator (guard Plain); C29_counterexample shows two modules sharing a record otherwise."
  },
  {
   "property": "C30",
   "status": "partial",
   "theorems": [
    "Sid.Props.C30_write_protection_partial",
    "Sid.Props.C30_owner_and_core",
    "Sid.Props.C30_history_partial",
    "Sid.Props.C30_denied_set_crashes",
    "Sid.Props.C30_confused",
    "Sid.Props.C30_counterexample"
   ],
   "note": "Guards: the names are not confused by the matching (C30_confused: exactly then the flag for subordinates decides for unrelated modules, C30_counterexample: /block/x and /type/y); a denied set of a value crashes (C30_denied_set_crashes), so the theorem speaks of calls that return."
  },
  {
   "property": "C31",
   "status": "partial",
   "theorems": [
    "Sid.Props.C31_read_protection_partial",
    "Sid.Props.C31_owner_and_core",
    "Sid.Props.C31_reads_own_write"
   ],
   "note": "Same guard on names as C30; errors -EPERM and -ENOENT told apart."
  },
  {
   "property": "C32",
   "status": "partial",
   "theorems": [
    "Sid.Props.C32_exclusive",
    "Sid.Props.C32_owner_can",
    "Sid.Props.C32_history",
    "Sid.Props.C32_global_set_partial",
    "Sid.Props.C32_counterexample"
   ],
   "note": "Reserve and unreserve proved for all names and histories. Global reservations bind setters only in the global namespace: C32_counterexample for the namespace of devices."
  },
  {
   "property": "C33",
   "status": "proved",
   "theorems": [
    "Sid.Props.C33_step",
    "Sid.Props.C33_denied",
    "Sid.Props.C33_update"
   ],
   "note": "C33_step: for every store, key, operation, header and sorted items. C33_update: the whole update including the records of the items, at any point of a history of updates in a worker."
  },
  {
   "property": "C34",
   "status": "proved",
   "theorems": [
    "Sid.Props.C34_accumulated"
   ],
   "note": "For every history of updates the daemon makes (in the name of the core, items naming pairwise different records); quantified over all set-valued records at once."
  },
  {
   "property": "C35",
   "status": "partial",
   "theorems": [
    "Sid.Props.C35_merge_partial",
    "Sid.Props.C35_sent",
    "Sid.Props.C35_converge_partial",
    "Sid.Props.C35_commute_partial",
    "Sid.Props.SyncExample.C35_counterexample"
   ],
   "note": "Merge of a message, convergence with one worker and commutation of disjoint messages, for all stores and messages in the order of their keys. Partial: messages with two records of removed items without the flag RS that empty their sets make the main process read through a stale pointer (C35_counterexample)."
  },
  {
   "property": "C36",
   "status": "partial",
   "theorems": [
    "Sid.Props.C36_unset",
    "Sid.Props.C36_newest_partial",
    "Sid.Props.C36_any_order_partial",
    "Sid.Props.C36_never_older",
    "Sid.Props.C36_old_ignored",
    "Sid.Props.SyncExample.C36_counterexample"
   ],
   "note": "Newest write wins for all sequences of messages that set a record by its module; sequence number never decreases; older sets and unsets are ignored. Partial: an unset forgets the sequence number, so an older write coming later is taken (C36_counterexample)."
  },
  {
   "property": "C37",
   "status": "partial",
   "theorems": [
    "Sid.Props.C37_roundtrip",
    "Sid.Props.C37_aligned",
    "Sid.Props.C37_injective",
    "Sid.Props.C37_export",
    "Sid.Props.C37_load_partial",
    "Sid.Props.CodecExample.C37_reservation",
    "Sid.Props.CodecExample.C37_counterexample",
    "Sid.Props.CodecExample.C37_counterexample_worker"
   ],
   "note": "Round trip of the bytes for all records (messages up to 64 MiB, the limit of the reader), reading by the main process of what a worker exports, and loading into an empty store. Partial: records without data are read as requests for removal (C37_counterexample: reservations in the database file are not loaded, reservations made in workers never reach the main process)."
  },
  {
   "property": "C38",
   "status": "partial",
   "theorems": [
    "Sid.Props.C38_export_partial",
    "Sid.Props.C38_once_partial",
    "Sid.Props.C38_succeeds",
    "Sid.Props.SyncExample.C38_counterexample"
   ],
   "note": "For all histories of module calls, set updates and exports. Partial: records whose index entry was wrong from the start (reservations of the main process, C38_counterexample), archives and set-valued records themselves are excluded."
  },
  {
   "property": "C39",
   "status": "partial",
   "theorems": [
    "Sid.Props.C39_ready_moves_partial",
    "Sid.Props.C39_refused_changes_nothing",
    "Sid.Props.C39_repeated_request",
    "Sid.Props.C39_refused_outside_phases",
    "Sid.Props.C39_unread_state_counterexample",
    "Sid.Props.C39_denied_write_counterexample"
   ],
   "note": "Partial: holds when a command reads the state before setting it (the cached value starts as 0) and the store accepts the write; C39_unread_state_counterexample and C39_denied_write_counterexample show the code violating it otherwise."
  },
  {
   "property": "C40",
   "status": "partial",
   "theorems": [
    "Sid.Props.C40_reserved_moves_partial",
    "Sid.Props.C40_refused_changes_nothing",
    "Sid.Props.C40_repeated_request",
    "Sid.Props.C40_refused_outside_phases",
    "Sid.Props.C40_unread_state_counterexample"
   ],
   "note": "Partial: as C39; C40_unread_state_counterexample shows the violation when the state was not read first."
  },
  {
   "property": "C41",
   "status": "proved",
   "theorems": [
    "Sid.Props.C41_scan_course",
    "Sid.Props.C41_exit_runs_once",
    "Sid.Props.C41_bad_stage"
   ],
   "note": "Phase handlers are arbitrary functions of an arbitrary state. A failing error or exit phase after a failed middle phase is only logged and the command still returns 0; this is what the code does and what the Course relation says."
  },
  {
   "property": "C42",
   "status": "partial",
   "theorems": [
    "Sid.Props.C42_one_response",
    "Sid.Props.C42_nothing_after_yield",
    "Sid.Props.C42_response_partial",
    "Sid.Props.C42_response_after_ack_partial",
    "Sid.Props.C42_yield",
    "Sid.Props.C42_progress",
    "Sid.Props.C42_ends",
    "Sid.Props.C42_finished",
    "Sid.Props.C42_no_crash_partial",
    "Sid.Props.CmdExample.C42_counterexample_second_stage",
    "Sid.Props.CmdExample.C42_counterexample_failed",
    "Sid.Props.CmdExample.C42_counterexample_early_message",
    "Sid.Props.CmdExample.C42_counterexample_crash",
    "Sid.Props.CmdExample.C42_counterexample_late_message"
   ],
   "note": "Proved for all outcomes and orders: at most one response, no execution after the yield; with messages as the main process sends them: a finished client command responded exactly once (in its first stage), only after all exports were acknowledged, yields exactly once and exactly when finished or failed, is never stuck, and runs at most 2 times per stage plus once per question. The English statement is false in three ways, shown by counterexamples: no response in the second stage, no response of a failed command, a udev property set in the second stage crashes the worker; a message other than the acknowledgement while waiting for it is taken for it."
  },
  {
   "property": "C43",
   "status": "partial",
   "theorems": [
    "Sid.Props.C43_executed_only_if_allowed",
    "Sid.Props.C43_executed_exactly_partial",
    "Sid.Props.C43_executed_in_order",
    "Sid.Props.C43_counterexample_no_answer",
    "Sid.Props.C43_counterexample_unknown_command",
    "Sid.Props.C43_nothing_behind_short_header",
    "Sid.Props.ConnExample.C43_counterexample_short_header"
   ],
   "note": "Proved for all byte streams, fragmentations, credentials: a command is created only for requests with whole header, right protocol, known command and a client allowed to run it; of framed requests exactly the acceptable ones are executed, once and in order. The English statement is false in three ways: a refused request is never answered (theorem for all inputs: the failure reply is written only if adding it to the buffer fails); every request with an unknown command number is undefined behaviour (out of bounds access of the table of commands, by any user); the refusal of a request shorter than a header reads behind the buffer."
  },
  {
   "property": "C44",
   "status": "proved",
   "theorems": [
    "Sid.Props.C44_exclusive",
    "Sid.Props.C44_always_fresh",
    "Sid.Props.C44_not_used_after_end",
    "Sid.Props.C44_idle_pick",
    "Sid.Props.C44_counterexample_recorded_state",
    "Sid.Props.C44_counterexample_worker_left_over"
   ],
   "note": "Proved for every history of client connections, udev messages, yields, timeouts and ends of worker processes. The code never records a worker as idle, so each job goes to a new process (C44_always_fresh). Counterexamples: a late udev message sets an exiting worker back to assigned; a failed accept leaves a worker that is never used. Worker ids (UUIDs) are taken as never generated twice."
  },
  {
   "property": "C45",
   "status": "proved",
   "theorems": [
    "Sid.Props.C45_in_order",
    "Sid.Props.C45_all_delivered",
    "Sid.Props.C45_before_failure",
    "Sid.Props.C45_send_succeeds",
    "Sid.Props.C45_external_output",
    "Sid.Props.C45_external_input"
   ],
   "note": "Proved for the default lanes of workers, any segmentation of writes and reads, any number of messages with data of less than 2^32-8 bytes; the write schedule never reports ENODATA. A message whose descriptor byte never came is delivered with descriptor -1."
  },
  {
   "property": "C46",
   "status": "partial",
   "theorems": [
    "Sid.Props.C46_lookup",
    "Sid.Props.C46_load_registered",
    "Sid.Props.C46_load_twice",
    "Sid.Props.C46_no_duplicates_partial",
    "Sid.Props.C46_unloaded",
    "Sid.Props.C46_directory",
    "Sid.Props.C46_symbols",
    "Sid.Props.C46_file_name",
    "Sid.Props.C46_counterexample_directory_twice",
    "Sid.Props.C46_counterexample_slash"
   ],
   "note": "Lookup is proved for every history of loading and unloading (aliases declared as SID_MOD_ALIASES does). Loading by an already registered name or alias never loads again. That no two modules share a name is proved only for single loads of names without a slash (C46_no_duplicates_partial): loading a directory twice, a directory with a.so and a.SO, and names with a slash register a module again (counterexamples). dlopen, running of module code and memory exhaustion are not modelled; the result of a module's init is an input."
  },
  {
   "property": "C47",
   "status": "partial",
   "theorems": [
    "Sid.Props.C47_history",
    "Sid.Props.C47_memory",
    "Sid.Props.C47_remove",
    "Sid.Props.C47_notify_partial",
    "Sid.Props.C47_takers",
    "Sid.Props.C47_notify_link_partial",
    "Sid.Props.C47_counterexample_arguments",
    "Sid.Props.C47_merge_partial",
    "Sid.Props.C47_counterexample_merge",
    "Sid.Props.C47_resource"
   ],
   "note": "Model of all of srv-lnk.c at pointer level and of the links a new resource gets. Histories of calls, group notification, single notification, copying and resource links are proved for all histories. Partial: a message with arguments that is formatted more than once is undefined behaviour (C47_counterexample_arguments), so notification is proved without arguments or with one user of them; merging a group with members is undefined behaviour in every reachable state (C47_counterexample_merge), so merging is proved for sources without members only."
  },
  {
   "property": "C48",
   "status": "partial",
   "theorems": [
    "Sid.Props.C48_words",
    "Sid.Props.C48_words_unique",
    "Sid.Props.C48_words_fail",
    "Sid.Props.C48_unclosed",
    "Sid.Props.C48_join",
    "Sid.Props.C48_fits",
    "Sid.Props.C48_used_if_fits",
    "Sid.Props.C48_copy_partial",
    "Sid.Props.C48_copy_needs_room",
    "Sid.Props.C48_counterexample_copy",
    "Sid.Props.C48_prefix_suffix",
    "Sid.Props.C48_needle",
    "Sid.Props.C48_counterexample_overlap",
    "Sid.Props.C48_last_occurrence_partial",
    "Sid.Props.C48_counterexample_beginning",
    "Sid.Props.C48_copies"
   ],
   "note": "Splitting is proved to yield exactly the words written in the text, for all texts, delimiters and quotes, including failure and memory use. Partial: util_strv_copy leaves the end of the copy unmarked; util_str_rstr never finds an occurrence at the very beginning; with a text to be found between prefix and suffix it may reach into the suffix. Counterexample theorems are given for each."
  },
  {
   "property": "C49",
   "status": "partial",
   "theorems": [
    "Sid.Props.C49_bidirectional",
    "Sid.Props.C49_total",
    "Sid.Props.C49_add_del",
    "Sid.Props.C49_alias",
    "Sid.Props.C49_destroy",
    "Sid.Props.C49_unnamed_refused",
    "Sid.Props.C49_rename",
    "Sid.Props.C49_dependencies",
    "Sid.Props.C49_main_partial",
    "Sid.Props.GroupExample.C49_counterexample",
    "Sid.Props.GroupExample.C49_counterexample_main"
   ],
   "note": "In a worker both membership lists agree after every sequence of calls and exports, all calls succeed where the API says so, add/del/destroy/rename/dependency updates have exactly their stated effect. Partial for the main store: messages replacing the record of a group as a whole (C49_counterexample_main) and messages excluded by C35. Groups in namespaces other than the own one of the module cannot be destroyed (C49_counterexample). Identifiers are free of colons, disk sequence numbers of a device are distinct."
  },
  {
   "property": "C50",
   "status": "partial",
   "theorems": [
    "Sid.Props.C50_immediate",
    "Sid.Props.C50_down_partial",
    "Sid.Props.C50_up_partial",
    "Sid.Props.C50_cycle",
    "Sid.Props.C50_counterexample_plain",
    "Sid.Props.StackExample.C50_counterexample_unknown"
   ],
   "note": "Both directions proved for every finite acyclic stack in every store whose group lists agree (C49), by induction over the stack. Partial: every disk reached must be known as exactly one device and the other way round (C50_counterexample_unknown: a disk not seen yet makes the whole search fail with ENODATA), a device must be given by key (C50_counterexample_plain: a plain UUID is undefined behaviour); on cyclic stacks the search never ends (C50_cycle). Duplicates in the result are not excluded (the example with two ways to one disk returns it twice)."
  },
  {
   "property": "C51",
   "status": "partial",
   "theorems": [
    "Sid.Props.C51_choice_partial",
    "Sid.Props.C51_total_partial",
    "Sid.Props.C51_again_partial",
    "Sid.Props.C51_main_partial",
    "Sid.Props.C51_kept_partial",
    "Sid.Props.IdentExample.C51_counterexample_colon",
    "Sid.Props.IdentExample.C51_counterexample_long",
    "Sid.Props.IdentExample.C51_counterexample_two"
   ],
   "note": "Proved in a worker and in the main store: a device gets the identifier on record for its number, else that of udev, else the generated one; it is on record afterwards, stays on record whatever happens, and a device that comes again gets it. Partial: identifiers must be non-empty, at most 36 bytes, without colon and NUL; a number is on record for one device only (the import of udev database at start and two workers at once can record two, then the lookup writes beyond its buffer); totality needs no reservation of device states. Counterexample theorems for each. A device number used again for another device gets the old identifier; if daemon and udev differ the daemon wins and udev is not corrected."
  },
  {
   "property": "C52",
   "status": "partial",
   "theorems": [
    "Sid.Props.C52_nested_partial",
    "Sid.Props.C52_meaning",
    "Sid.Props.C52_injective",
    "Sid.Props.C52_counterexample_bool",
    "Sid.Props.C52_counterexample_quote",
    "Sid.Props.C52_counterexample_forged"
   ],
   "note": "Proved for every properly nested sequence of documents, arrays, elements, text, binary and number fields, of any depth, width and indentation: the output is one JSON text with the meaning written (Text has one meaning, C52_meaning). False for fmt_fld_bool fields (the field itself is put into braces, C52_counterexample_bool) and for text with quotation marks or backslashes, which is not escaped (C52_counterexample_quote, C52_counterexample_forged)."
  },
  {
   "property": "C53",
   "status": "proved",
   "theorems": [
    "Sid.Props.C53_command_names_one_to_one",
    "Sid.Props.C53_result_is_the_reply"
   ],
   "note": ""
  },
  {
   "property": "C54",
   "status": "partial",
   "theorems": [
    "Sid.Props.C54_device_number_accepted_partial",
    "Sid.Props.C54_large_minor_refused_counterexample",
    "Sid.Props.C54_out_of_range_refused"
   ],
   "note": "Partial: proved for minors below 4096. Larger minors are refused with ERANGE because the limits of major and minor are swapped in ifc.c:22-23 (theorem C54_large_minor_refused_counterexample)."
  },
  {
   "property": "C55",
   "status": "partial",
   "theorems": [
    "Sid.Props.C55_first",
    "Sid.Props.C55_start_partial",
    "Sid.Props.C55_kept",
    "Sid.Props.C55_workers",
    "Sid.Props.C55_history_partial",
    "Sid.Props.C55_increasing_partial",
    "Sid.Props.GenExample.C55_counterexample_wrap",
    "Sid.Props.GenExample.C55_counterexample_refused"
   ],
   "note": "First start gives 1; a start from a saved database gives the stored generation + 1; over any history of lives (saving any number of times or never, ending at any time, worker messages silent about the generation, which is proved of whatever modules do) every start gives 1 + number of earlier lives that saved. Missing: generation 65535 wraps to 0 (C55_counterexample_wrap); a file that is refused (more than 64 MiB, too short) is taken as none and the generation is 1 again (C55_counterexample_refused); files written in part (written in place, read behind their end: undefined) are excluded by Saved."
  },
  {
   "property": "C56",
   "status": "proved",
   "theorems": [
    "Sid.Props.C56_multi_values"
   ],
   "note": ""
  },
  {
   "property": "C57",
   "status": "proved",
   "theorems": [
    "Sid.Props.C57_next_layer_needs_public",
    "Sid.Props.C57_remove_updates_stack",
    "Sid.Props.C57_current_layer_needs_ready",
    "Sid.Props.C57_current_phase_default",
    "Sid.Props.C57_call_order",
    "Sid.Props.C57_calls",
    "Sid.Props.C57_calls_when_ready",
    "Sid.Props.C57_calls_next",
    "Sid.Props.C57_calls_init",
    "Sid.Props.C57_calls_exit",
    "Sid.Props.C57_calls_error",
    "Sid.Props.C57_calls_remove",
    "Sid.Props.C57_scan_leaves_states_processed"
   ],
   "note": ""
  },
  {
   "property": "C58",
   "status": "proved",
   "theorems": [
    "Sid.Props.C58_plain_read_appends",
    "Sid.Props.C58_step_zero_counterexample"
   ],
   "note": "End-of-input part under a non-zero allocation step (C58_step_zero_counterexample shows the false end of input otherwise)."
  },
  {
   "property": "C59",
   "status": "proved",
   "theorems": [
    "Sid.Props.C59_accounting"
   ],
   "note": ""
  },
  {
   "property": "C60",
   "status": "proved",
   "theorems": [
    "Sid.Props.C60_values_released_once",
    "Sid.Props.C60_after_rollback",
    "Sid.Props.C60_after_commit"
   ],
   "note": "Theorems cover all histories outside of transactions and rolled back transactions that write each key at most once."
  },
  {
   "property": "C61",
   "status": "proved",
   "theorems": [
    "Sid.Props.C61_scan_request_on_the_wire",
    "Sid.Props.C61_checkpoint_request_on_the_wire",
    "Sid.Props.C61_plain_request_on_the_wire"
   ],
   "note": "For descriptors that do not report ENODATA on write (see C10)."
  },
  {
   "property": "C62",
   "status": "partial",
   "theorems": [
    "Sid.Props.C62_environment_imported_partial",
    "Sid.Props.C62_empty_value_counterexample"
   ],
   "note": "Partial: exact description of what is imported; a variable with an empty value stops the import (counterexample)."
  },
  {
   "property": "C63",
   "status": "proved",
   "theorems": [
    "Sid.Props.C63_read_all_exact"
   ],
   "note": ""
  },
  {
   "property": "C64",
   "status": "partial",
   "theorems": [
    "Sid.Props.C64_argument_found_iff_present",
    "Sid.Props.C64_argument_value_partial",
    "Sid.Props.C64_value_has_equals_sign_counterexample"
   ],
   "note": "Presence proved in full; the value is returned with the equals sign in front (counterexample), partial theorem describes it exactly."
  },
  {
   "property": "C65",
   "status": "partial",
   "theorems": [
    "Sid.Props.C65_env_number_partial",
    "Sid.Props.C65_empty_and_negative_counterexample"
   ],
   "note": "Partial: digits and strings with foreign characters; the empty string and signed numbers are accepted and min = max disables the range (counterexample)."
  },
  {
   "property": "C66",
   "status": "partial",
   "theorems": [
    "Sid.Props.C66_priority_set_partial",
    "Sid.Props.C66_no_parent_counterexample"
   ],
   "note": "Fails for resources without parent (counterexample)."
  },
  {
   "property": "C67",
   "status": "partial",
   "theorems": [
    "Sid.Props.C67_backwards_partial",
    "Sid.Props.C67_forth_and_back_counterexample"
   ],
   "note": "Only going backwards from the start; counterexample for mixing directions."
  },
  {
   "property": "C68",
   "status": "partial",
   "theorems": [
    "Sid.Props.C68_match_query",
    "Sid.Props.C68_match_resource_query_partial",
    "Sid.Props.C68_siblings_never_found_counterexample"
   ],
   "note": "sid_res_search_match for all methods; sid_res_search_match_res for all but SIB and GENUS, for which it always answers no (proved)."
  },
  {
   "property": "C69",
   "status": "partial",
   "theorems": [
    "Sid.Props.C69_rearm_relative_time",
    "Sid.Props.C69_create_relative_time_partial",
    "Sid.Props.C69_clock_failure_counterexample"
   ],
   "note": "Re-arming proved; creating a timer returns a positive number if the clock cannot be read (counterexample)."
  },
  {
   "property": "C70",
   "status": "partial",
   "theorems": [
    "Sid.Props.C70_key_value",
    "Sid.Props.C70_nodata",
    "Sid.Props.C70_counterexample_no_value",
    "Sid.Props.C70_refused_partial"
   ],
   "note": "Exact characterisation for every line. Partial: a line with key and equals sign but no value makes the code read behind the end (C70_counterexample_no_value)."
  },
  {
   "property": "C71",
   "status": "proved",
   "theorems": [
    "Sid.Props.C71_loaded",
    "Sid.Props.C71_attached",
    "Sid.Props.C71_distinct",
    "Sid.Props.C71_attach_result",
    "Sid.Props.C71_counterexample_failed_attach"
   ],
   "note": "Proved for registry ids and names without slash. The counterexample shows names not being set back after a failed attach. Registries attached bottom-up (never done by the daemon) are outside AtPath's premise."
  },
  {
   "property": "C72",
   "status": "partial",
   "theorems": [
    "Sid.Props.C72_version",
    "Sid.Props.C72_ctl_version",
    "Sid.Props.C72_dbstats",
    "Sid.Props.C72_resources",
    "Sid.Props.C72_dump_partial",
    "Sid.Props.C72_devices_partial",
    "Sid.Props.C72_counterexample_binary",
    "Sid.Props.C72_counterexample_empty",
    "Sid.Props.C72_counterexample_first",
    "Sid.Props.C72_long_identifier"
   ],
   "note": "Versions, statistics and resources proved in full. The dump is partial: a vector beginning with a binary value, or having an empty value behind another, gives invalid JSON (counterexamples). The device listing is partial: if its first record is a readiness or reservation state, a comma is missing (counterexample)."
  },
  {
   "property": "C73",
   "status": "proved",
   "theorems": [
    "Sid.Props.C73_lines",
    "Sid.Props.C73_states",
    "Sid.Props.C73_nothing_else"
   ],
   "note": "Proved for all masks and texts; the value is the precision-limited copy of a line, values are assumed shorter than 2 GiB."
  },
  {
   "property": "C74",
   "status": "proved",
   "theorems": [
    "Sid.Props.C74_handed_over_memory_freed_once",
    "Sid.Props.C74_freed_once_after_rollback",
    "Sid.Props.C74_freed_once_after_commit"
   ],
   "note": ""
  },
  {
   "property": "C75",
   "status": "proved",
   "theorems": [
    "Sid.Props.C75_answered_request_does_not_fail",
    "Sid.Props.C75_answered_request_succeeds"
   ],
   "note": ""
  },
  {
   "property": "C76",
   "status": "partial",
   "theorems": [
    "Sid.Props.C76_event_as_described_partial",
    "Sid.Props.C76_disk_sequence_text",
    "Sid.Props.C76_names_round_trip",
    "Sid.Props.C76_path_without_directory_counterexample",
    "Sid.Props.C76_cut_off_counterexample",
    "Sid.Props.C76_removal_lost_counterexample"
   ],
   "note": "False as stated in two ways, both proved: a DEVPATH without a slash beyond its first character makes the name NULL + 1, and everything behind a variable without a value is ignored (so a removal can become an unknown event, without disk sequence text). Proved for all environments without these two. Values of SEQNUM, DISKSEQ, PARTN that are not decimal numbers below 2^64 are not specified."
  },
  {
   "property": "C77",
   "status": "partial",
   "theorems": [
    "Sid.Props.C77_module_of_driver_partial",
    "Sid.Props.C77_extended_partition_counterexample",
    "Sid.Props.C77_extended_disk_counterexample",
    "Sid.Props.C77_module_remembered"
   ],
   "note": "False for devices of the extended range that are no NVMe devices, both proved: for a partition the module of the whole disk is dropped because a comparison is the wrong way round, and if the whole disk has such a number as well the lookup calls itself until the stack is used up; whole disks of that range have no module. Proved for all tables of drivers for the other devices."
  },
  {
   "property": "C78",
   "status": "partial",
   "theorems": [
    "Sid.Props.C78_assignments_read_back_partial",
    "Sid.Props.C78_same_output",
    "Sid.Props.C78_numbers_lost_counterexample",
    "Sid.Props.C78_elements_counterexample",
    "Sid.Props.C78_table_fields",
    "Sid.Props.C78_table_headings"
   ],
   "note": "Partial: holds for lists of texts; in lists of numbers the numbers are not written at all and the first field of a list of elements is read as part of the value of the list (C78_numbers_lost_counterexample, C78_elements_counterexample). No escaping exists, so values must not contain newlines."
  },
  {
   "property": "C79",
   "status": "partial",
   "theorems": [
    "Sid.Props.C79_reply_is_what_was_set",
    "Sid.Props.C79_next_stage",
    "Sid.Props.C79_usid_prints_partial",
    "Sid.Props.C79_set_to_printed_partial",
    "Sid.Props.C79_newline_counterexample",
    "Sid.Props.C79_single_byte_counterexample"
   ],
   "note": "Histories are imports of the request, sets and unsets by modules in the udev namespace (accepted or without effect), all other calls of modules, and anything that leaves the udev namespace alone. C79_reply_is_what_was_set covers the reply of a stage, C79_next_stage that stages and commands do not influence each other, C79_set_to_printed_partial the way to the lines printed by usid, for names without = and newline and values without newline; C79_newline_counterexample shows that with a newline a module has udev set another variable, C79_single_byte_counterexample that a value of one byte given without end mark is not told."
  },
  {
   "property": "C80",
   "status": "partial",
   "theorems": [
    "Sid.Props.C80_cookie_read",
    "Sid.Props.C80_cookie_refused",
    "Sid.Props.C80_ready_state",
    "Sid.Props.C80_resume_decides",
    "Sid.Props.C80_suspended",
    "Sid.Props.C80_no_cookie_no_change",
    "Sid.Props.C80_unconfigured_until_resume_partial",
    "Sid.Props.C80_recreated_counterexample",
    "Sid.Props.C80_refused_event_counterexample"
   ],
   "note": "Proved: refinement of all histories to Spec.Dm.after. False for devices that get the number of a removed one (nothing is noted at removal: the new device keeps the old state before it has a table) and for devices first seen in an event that is refused (core makes them public): counterexamples."
  },
  {
   "property": "C81",
   "status": "partial",
   "theorems": [
    "Sid.Props.C81_flags_told_partial",
    "Sid.Props.C81_name_told",
    "Sid.Props.C81_no_cookie_counterexample"
   ],
   "note": "Proved for events with a cookie. False for events without one, e.g. synthetic events: no flag is set even for private devices (counterexample, general). Hence udev rules treat a private device like a public one after `udevadm trigger`, unless the request has the flags."
  },
  {
   "property": "C82",
   "status": "partial",
   "theorems": [
    "Sid.Props.C82_completed_once_partial",
    "Sid.Props.C82_unreadable_counterexample",
    "Sid.Props.C82_same_worker_counterexample",
    "Sid.Props.C82_volumes_partial"
   ],
   "note": "Proved for events whose device can be read in sysfs (or removals), each in a worker process of its own. False otherwise: if sysfs cannot be read the cookie is never completed; a worker that serves two commands completes the cookie of the first once more (counterexamples)."
  },
  {
   "property": "C83",
   "status": "partial",
   "theorems": [
    "Sid.Props.C83_names_found",
    "Sid.Props.C83_names_told_partial",
    "Sid.Props.C83_replaced_counterexample",
    "Sid.Props.C83_same_worker_counterexample",
    "Sid.Props.C83_other_devices_partial"
   ],
   "note": "Proved for all names LVM permits and all histories of a volume: the names are found again (C83_names_found) and told to udev (C83_names_told_partial). Missing: layers LVM appends without a hyphen (names beginning with _) are part of the volume name. Other devices are treated as without the module if each command has its own worker (C83_other_devices_partial). False otherwise: a device that takes the place of a volume, or is served by a worker that served a volume, is taken for a volume; its scan fails if its name has no hyphen (C83_replaced_counterexample, C83_same_worker_counterexample)."
  },
  {
   "property": "C84",
   "status": "partial",
   "theorems": [
    "Sid.Props.C84_ready_state",
    "Sid.Props.C84_initialising",
    "Sid.Props.C84_hidden_until_initialised_partial",
    "Sid.Props.C84_initialised",
    "Sid.Props.C84_no_cookie_counterexample",
    "Sid.Props.C84_private_counterexample",
    "Sid.Props.C84_flat_counterexample",
    "Sid.Props.C84_flags_told"
   ],
   "note": "The state follows the specification afterLvm for all histories (C84_ready_state). The volume is hidden from the cookie that says so on (C84_initialising) as long as events have cookies (C84_hidden_until_initialised_partial). False: an event without a cookie, e.g. udevadm trigger, makes the volume public (C84_no_cookie_counterexample), a private volume becomes public when it is initialised (C84_private_counterexample), a flat one is never hidden (C84_flat_counterexample)."
  },
  {
   "property": "C85",
   "status": "partial",
   "theorems": [
    "Sid.Props.C85_turned_off",
    "Sid.Props.C85_disk_partial",
    "Sid.Props.C85_remembered_partial",
    "Sid.Props.C85_reply_partial",
    "Sid.Props.C85_partition_counterexample",
    "Sid.Props.C85_partition_partial"
   ],
   "note": "False of partitions: the module records the answer in its own namespace for the device, under the identifier of the device, but for a partition looks in the namespace of devices under the number of the disk, so partitions of claimed disks are never told (C85_partition_counterexample). Guards of the disk theorems: no \":\" in names of modules and devices (see C29); no other module acts under the name of this one or of the core. The value of nompath=... is never looked at, although the code means to. libmpathvalid is taken to set its result pointer on every call; the module reads the pointer uninitialised otherwise."
  },
  {
   "property": "C86",
   "status": "partial",
   "theorems": [
    "Sid.Props.C86_reads_number",
    "Sid.Props.C86_reads_disk_partial",
    "Sid.Props.C86_not_found_counterexample"
   ],
   "note": "False as stated: the function looks under the number of the disk, but records in the namespace of devices are kept under the identifier of the device (C86_not_found_counterexample: nothing is ever found unless a device is identified by that number). C86_reads_disk_partial: it works if the identifier of the disk is its number."
  },
  {
   "property": "C87",
   "status": "partial",
   "theorems": [
    "Sid.Props.C87_told_partial",
    "Sid.Props.C87_printed_partial",
    "Sid.Props.C87_uuid_counterexample",
    "Sid.Props.C87_newline_counterexample",
    "Sid.Props.C87_leftover_counterexample",
    "Sid.Props.C87_unreadable_counterexample"
   ],
   "note": "Partial: holds if identifiers have nothing to replace in them and texts fit the buffers. Counterexamples: every identifier the library would change is told as it is; with a newline in it udev reads another variable; of the encoded identifier 224 bytes with leftovers of the stack are kept; other modules cannot read it. What libblkid finds and how it rewrites texts are parameters."
  },
  {
   "property": "C88",
   "status": "partial",
   "theorems": [
    "Sid.Props.C88_types",
    "Sid.Props.C88_last_known_partial",
    "Sid.Props.C88_found",
    "Sid.Props.C88_stale_counterexample"
   ],
   "note": "Partial: the module is that of the last type found that has a module, after any history in which other modules leave the record alone. Counterexample for all states: a probe that finds nothing, an unknown type, or fails, leaves the module of the earlier contents."
  },
  {
   "property": "C89",
   "status": "partial",
   "theorems": [
    "Sid.Props.C89_disk_partial",
    "Sid.Props.C89_partition",
    "Sid.Props.C89_removed",
    "Sid.Props.C89_asked_partial",
    "Sid.Props.C89_counterexample_unlisted",
    "Sid.Props.C89_counterexample_on_partition",
    "Sid.Props.C89_counterexample_freed"
   ],
   "note": "Proved for devices whose number the kernel shows; counterexamples: directory that cannot be listed (success reported, old record kept), devices on partitions (left out), partition of a disk without number (log message uses freed memory)."
  },
  {
   "property": "C90",
   "status": "partial",
   "theorems": [
    "Sid.Props.C90_told",
    "Sid.Props.C90_failed",
    "Sid.Props.C90_counterexample_no_data",
    "Sid.Props.C90_other_protocol",
    "Sid.Props.C90_no_daemon",
    "Sid.Props.C90_active_means",
    "Sid.Props.C90_inactive_means",
    "Sid.Props.C90_cannot_connect",
    "Sid.Props.C90_incompatible_means",
    "Sid.Props.C90_success_means",
    "Sid.Props.C90_active_says",
    "Sid.Props.C90_version_says",
    "Sid.Props.C90_misused",
    "Sid.Props.C90_scan_sends",
    "Sid.Props.C90_ends",
    "Sid.Props.C90_scan_end_to_end_partial"
   ],
   "note": "Partial because the property is false of replies without data: C90_counterexample_no_data shows that a daemon answering a checkpoint with success (a bare header) is called incompatible. C90_other_protocol: variables of a daemon with another protocol are passed on nevertheless. C90_scan_end_to_end_partial needs names and values without newlines (C79). The library functions are those of C53, C61 and C75."
  },
  {
   "property": "C91",
   "status": "proved",
   "theorems": [
    "Sid.Props.C91_prints",
    "Sid.Props.C91_prints_database",
    "Sid.Props.C91_failed",
    "Sid.Props.C91_no_daemon",
    "Sid.Props.C91_success_means",
    "Sid.Props.C91_sends",
    "Sid.Props.C91_misused"
   ],
   "note": "A text without the final NUL (which the daemon always adds) is outside the theorems: the tool would read behind the data (outcome ub of the model)."
  },
  {
   "property": "C92",
   "status": "partial",
   "theorems": [
    "Sid.Props.C92_restart_partial",
    "Sid.Props.C92_read_partial",
    "Sid.Props.C92_counterexample_reserved",
    "Sid.Props.C92_counterexample_size"
   ],
   "note": "The full statement is C92_restart_partial for every key and record; false for reservations (records without data) and for databases of more than 64 MiB, shown for all such cases."
  },
  {
   "property": "C93",
   "status": "partial",
   "theorems": [
    "Sid.Props.C93_killed_partial",
    "Sid.Props.C93_done",
    "Sid.Props.C93_no_fault",
    "Sid.Props.C93_not_begun",
    "Sid.Props.C93_counterexample_lost",
    "Sid.Props.DumpExample.C93_counterexample_two"
   ],
   "note": "False as stated: between the first and the last action of the worker nothing is left (C93_counterexample_lost for all databases) and two workers mix their databases (C93_counterexample_two). Proved: old, nothing or new, never a part of one, at every moment and for every order of the bytes."
  },
  {
   "property": "C94",
   "status": "partial",
   "theorems": [
    "Sid.Props.C94_standard",
    "Sid.Props.C94_none",
    "Sid.Props.C94_journal_partial",
    "Sid.Props.C94_counterexample_journal_errno",
    "Sid.Props.C94_counterexample_journal_prefix",
    "Sid.Props.C94_syslog_partial",
    "Sid.Props.C94_syslog_prefix",
    "Sid.Props.C94_counterexample_syslog",
    "Sid.Props.C94_counterexample_resource",
    "Sid.Props.C94_resource_cause",
    "Sid.Props.C94_counterexample_error_number",
    "Sid.Props.C94_no_handle",
    "Sid.Props.C94_options",
    "Sid.Props.C94_start"
   ],
   "note": "Standard streams: proved in full (C94_standard). Journal and syslog partial: the text is lost in syslog with two prefixes or more, error descriptions are not output; C94_counterexample_* state these for all messages."
  },
  {
   "property": "C95",
   "status": "partial",
   "theorems": [
    "Sid.Props.C95_records_partial",
    "Sid.Props.C95_activation_partial",
    "Sid.Props.C95_chosen",
    "Sid.Props.C95_claims",
    "Sid.Props.C95_not_claimed",
    "Sid.Props.C95_failure",
    "Sid.Props.C95_counterexample_long_line",
    "Sid.Props.C95_store_failure",
    "Sid.Props.C95_counterexample_blank",
    "Sid.Props.C95_counterexample_no_value"
   ],
   "note": "Proved for all outputs whose lines are at most 2047 characters long and have a value, and names without blanks and quotes; what happens otherwise is shown by the counterexample theorems."
  },
  {
   "property": "C96",
   "status": "partial",
   "theorems": [
    "Sid.Props.C96_whole",
    "Sid.Props.C96_prefix",
    "Sid.Props.C96_range_partial",
    "Sid.Props.C96_whole_partial",
    "Sid.Props.C96_prefix_partial",
    "Sid.Props.C96_counterexample_null",
    "Sid.Props.C96_hash_partial",
    "Sid.Props.C96_counterexample_hash"
   ],
   "note": "Exact for every history up to the first reference to NULL (C96_whole, C96_prefix); C96_counterexample_null: a reference to NULL hides itself and every later key; C96_counterexample_hash: a hash store ignores the prefix; ranges with a start that is not stored: see C17. Outside transactions."
  },
  {
   "property": "C97",
   "status": "partial",
   "theorems": [
    "Sid.Props.C97_statistics_partial",
    "Sid.Props.C97_counterexample_null",
    "Sid.Props.C97_counterexample_merged"
   ],
   "note": "Guards: no vector given by reference and merged, no reference to NULL; both guards are needed (C97_counterexample_merged, C97_counterexample_null). meta_size not modelled."
  },
  {
   "property": "C98",
   "status": "partial",
   "theorems": [
    "Sid.Props.C98_ends_of_channels",
    "Sid.Props.C98_failure_leaves_nothing",
    "Sid.Props.C98_created_if_room",
    "Sid.Props.C98_external_program_partial",
    "Sid.Props.C98_closed_stdin_counterexample"
   ],
   "note": "False if the descriptor number asked for is free in the creating process: pipe() may return that very number, dup2 then does nothing and the following close() closes it, so that the program runs without it (C98_closed_stdin_counterexample). Proved if the numbers asked for are open in the creating process, as standard streams usually are."
  },
  {
   "property": "C99",
   "status": "partial",
   "theorems": [
    "Sid.Props.C99_daemon_descriptors",
    "Sid.Props.C99_no_leak",
    "Sid.Props.C99_worker_descriptors",
    "Sid.Props.C99_proxy_paired",
    "Sid.Props.C99_worker_end_private",
    "Sid.Props.C99_ended_worker_noticed",
    "Sid.Props.C99_proxy_end_private_partial",
    "Sid.Props.C99_new_worker_holds_counterexample"
   ],
   "note": "The daemon's end is also held by workers that have been forked and have not begun to run (C99_new_worker_holds_counterexample); all else holds without restriction."
  },
  {
   "property": "C100",
   "status": "partial",
   "theorems": [
    "Sid.Props.C100_life_partial",
    "Sid.Props.C100_taken_over_before_response_partial",
    "Sid.Props.C100_told_partial",
    "Sid.Props.C100_at_rest_partial",
    "Sid.Props.C100_nothing_left_partial",
    "Sid.Props.C100_no_crash_partial",
    "Sid.Props.SysExample.C100_counterexample_two_scans",
    "Sid.Props.SysExample.C100_counterexample_lost_acknowledgement"
   ],
   "note": "Guard: no worker gets two commands of the same kind (a client could send two scans through one connection: acknowledgements are delivered by the name of the command, so both go to the first, which starts its second stage too early, and the second waits for ever: C100_counterexample_two_scans). At rest: no message lost (an acknowledgement that cannot be sent is only logged, the scan then waits without timeout: C100_counterexample_lost_acknowledgement). Assumed of udev: an event carries a session id only once, after the response to the scan; the id starts with a dot, so udev does not store it."
  },
  {
   "property": "C101",
   "status": "partial",
   "theorems": [
    "Sid.Props.C101_main",
    "Sid.Props.C101_get_partial",
    "Sid.Props.C101_index_partial",
    "Sid.Props.C101_memory_partial",
    "Sid.Props.C101_counterexample_exchanged"
   ],
   "note": "The store answers as a plain map for all reservations of the main process (unconditional, C101_main), and for all calls in workers that never overwrite a marked record by an unmarked one; the same guard for the index and for memory. Without the guard the statement is false of the code: C101_counterexample_exchanged proves for every module and all names a < b that set a with SYNC, set b, set a without SYNC leaves a reading the value of b and b that of a: removing the alias removes the first pointer to the same record in the leaf, which is that of the key itself, so that all pointers between are shifted by one. Not covered: groups of records changed in transactions."
  },
  {
   "property": "C102",
   "status": "partial",
   "theorems": [
    "Sid.Props.C102_exact_partial",
    "Sid.Props.C102_refused",
    "Sid.Props.C102_counterexample_silent",
    "Sid.Props.C102_counterexample_colon"
   ],
   "note": "Exact for devices that are in some group or have some alias, readable by the module, if no name has a colon. Missing because the code differs: errors of the lookup are overwritten by success and the number is not written when nothing is found (C102_counterexample_silent, for every store), and an alias of category x:y is returned for category x and not for x:y (C102_counterexample_colon)."
  },
  {
   "property": "C103",
   "status": "partial",
   "theorems": [
    "Sid.Props.C103_search_partial",
    "Sid.Props.C103_found",
    "Sid.Props.C103_alias",
    "Sid.Props.StrvExample.C103_counterexample_empty"
   ],
   "note": "Proved for names that are strings and not empty, whenever the search on lists (C50) is defined. Missing because the code differs: an array without strings is read before its start by the search for base or top devices and makes the other searches report ENOMEM (C103_counterexample_empty)."
  },
  {
   "property": "C104",
   "status": "proved",
   "theorems": [
    "Sid.Props.C104_exact",
    "Sid.Props.C104_all_or_nothing",
    "Sid.Props.C104_enough",
    "Sid.Props.C104_destroy"
   ],
   "note": "Sizes and counters are integers that do not wrap; blocks are counted, not addressed."
  },
  {
   "property": "C105",
   "status": "partial",
   "theorems": [
    "Sid.Props.C105_serves",
    "Sid.Props.C105_not_inherited",
    "Sid.Props.C105_background_partial",
    "Sid.Props.C105_counterexample_streams",
    "Sid.Props.C105_counterexample_session",
    "Sid.Props.C105_counterexample_limit",
    "Sid.Props.C105_activated",
    "Sid.Props.C105_counterexample_activated",
    "Sid.Props.C105_single",
    "Sid.Props.C105_no_leak",
    "Sid.Props.C105_status_partial",
    "Sid.Props.C105_counterexample_status",
    "Sid.Props.C105_starts_foreground",
    "Sid.Props.C105_starts_background"
   ],
   "note": "Partial: for a background start, standard streams closed by the caller end up closed and the socket takes descriptor 0, a failing setsid goes unnoticed, descriptors at or above the limit stay open; a background start never uses a passed socket; a failure to set up the daemon ends with exit status 0 (a counterexample theorem for each)."
  },
  {
   "property": "C106",
   "status": "proved",
   "theorems": [
    "Sid.Props.C106_exact",
    "Sid.Props.C106_not_created",
    "Sid.Props.C106_all_or_nothing",
    "Sid.Props.C106_enough"
   ],
   "note": "All of hash.c that allocates or frees."
  },
  {
   "property": "C107",
   "status": "partial",
   "theorems": [
    "Sid.Props.C107_current_partial",
    "Sid.Props.C107_failed",
    "Sid.Props.C107_start_partial",
    "Sid.Props.C107_counterexample_short",
    "Sid.Props.C107_counterexample_old"
   ],
   "note": "Partial: the kernel file starts with 36 characters, and an old record is a terminated string (a counterexample theorem for each)."
  }
 ]
}