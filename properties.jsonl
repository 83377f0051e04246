{"id": "C01", "title": "Base64 round trip", "statement": "Encoding any non-empty byte string with sid_conv_base64_encode into a buffer of sid_conv_base64_encoded_len bytes succeeds, yields a NUL-terminated text of alphabet characters and '=' padding only, and sid_conv_base64_decode of that text returns exactly the original bytes and their length.", "quantifier": "all non-empty byte strings of any length whose encoded length does not overflow size_t", "why_tests_cant": "The claim ranges over unboundedly many inputs; a test fixes finitely many of them.", "anchors": ["src/base/conv-base64.c: sid_conv_base64_encoded_len, sid_conv_base64_encode, sid_conv_base64_decode"]}
{"id": "C02", "title": "Base64 decoding ignores foreign characters", "statement": "Characters outside the Base64 alphabet (line breaks, spaces, ...) may be inserted anywhere into an encoded text without changing the decoded result.", "quantifier": "all byte strings and all ways to insert non-alphabet characters", "why_tests_cant": "The claim ranges over unboundedly many inputs; a test fixes finitely many of them.", "anchors": ["src/base/conv-base64.c: sid_conv_base64_decode"]}
{"id": "C03", "title": "Base64 length contract", "statement": "sid_conv_base64_encoded_len(n) is 0 exactly when the encoded text plus NUL does not fit size_t, otherwise it is exactly the number of bytes sid_conv_base64_encode writes; sid_conv_base64_encode rejects an output buffer smaller than that and writes nothing; the decoder rejects every text whose number of significant characters is zero or not a multiple of four.", "quantifier": "all lengths (64-bit) and all input texts", "why_tests_cant": "The claim ranges over unboundedly many inputs; a test fixes finitely many of them.", "anchors": ["src/base/conv-base64.c: sid_conv_base64_encoded_len, sid_conv_base64_encode, sid_conv_base64_decode"]}
{"id": "C04", "title": "Bitmap behaves as a set of bit positions", "statement": "After any sequence of bitmap set/unset calls, bmp_bit_is_set reports a position as set iff the most recent call for that position set it (or the bitmap was created inverted and the position was never touched), bmp_get_bit_set_count equals the number of set positions, and out-of-range positions are refused with -ERANGE and change nothing.", "quantifier": "all bitmap sizes up to 2^37 bits (beyond that the block index is truncated), both creation modes and all call sequences", "why_tests_cant": "The claim is about every history of calls; a test replays one history.", "anchors": ["src/internal/bmp.c: bmp_create, bmp_set_bit, bmp_unset_bit, bmp_bit_is_set, bmp_get_bit_set_count"]}
{"id": "C05", "title": "Linear buffer is an append-only byte sequence with rewind", "statement": "Whatever sequence of add, formatted add, rewind, unbind and reset calls is made on a linear buffer, sid_buf_get_data returns exactly the concatenation of what was added and not rewound, add returns the offset at which the added bytes start, and sid_buf_count is the length of that content.", "quantifier": "all buffer modes, initial sizes, allocation steps, limits and call sequences", "why_tests_cant": "The claim is about every history of calls; a test replays one history.", "anchors": ["src/base/buf.c: sid_buf_add, sid_buf_add_fmt, sid_buf_rewind, sid_buf_get_data_from, sid_buf_reset", "src/base/buf-type-linear.c"]}
{"id": "C06", "title": "Buffer allocation limit is never exceeded", "statement": "A linear buffer never allocates more than its configured limit, always has at least as much space allocated as used, and a call that would need more is refused (-EOVERFLOW, or -EXFULL with no growth step) with the content unchanged.", "quantifier": "all buffer configurations and call sequences", "why_tests_cant": "The claim is about every history of calls; a test replays one history.", "anchors": ["src/base/buf-type-linear.c: _buf_linear_realloc, _buf_linear_add, _buf_linear_fmt_add"]}
{"id": "C07", "title": "Memory handed out by a buffer stays valid", "statement": "As long as memory requested from sid_buf_add and friends is bound (not yet released or unbound), further adds are refused with -EBUSY, so the address and the bytes behind it do not change.", "quantifier": "all call sequences on all buffers", "why_tests_cant": "The claim is about every history of calls; a test replays one history.", "anchors": ["src/base/buf.c: sid_buf_add, sid_buf_add_vfmt, sid_buf_unbind, sid_buf_rewind, sid_buf_get_data_from"]}
{"id": "C08", "title": "Size-prefixed framing survives any fragmentation", "statement": "A message written from a size-prefix buffer and read back into a freshly created or reset size-prefix buffer (default initial size) is reported complete exactly when all of its bytes have arrived and then yields exactly the sender's payload, however the transport splits it.", "quantifier": "all payloads below 2^32-4 bytes and all splittings of the byte stream into reads, including interrupted reads", "why_tests_cant": "The number of ways to fragment a stream is unbounded; tests exercise a few.", "anchors": ["src/base/buf-type-linear.c: _buf_linear_read_with_size_prefix, _buf_linear_is_complete, _buf_linear_write", "src/base/buf.c: sid_buf_read, sid_buf_write_all"]}
{"id": "C09", "title": "A framed read never consumes bytes of the next message", "statement": "When several size-prefixed messages follow each other on one stream, reading a message into a default size-prefix buffer consumes exactly that message and leaves the following bytes on the stream.", "quantifier": "all sequences of messages and all fragmentations", "why_tests_cant": "Needs every interleaving of message boundaries and read boundaries.", "anchors": ["src/base/buf-type-linear.c: _buf_linear_read_with_size_prefix", "src/resource/wrk-ctl.c: _chan_buf_recv"]}
{"id": "C10", "title": "write_all transmits exactly the buffer content", "statement": "sid_buf_write_all on a linear or vector buffer transmits exactly the buffer's serialized content, in order and without repetition, for every behaviour of the file descriptor (short writes, EAGAIN, EINTR), and reports an error only if the descriptor did.", "quantifier": "all buffer contents and all schedules of partial writes", "why_tests_cant": "The schedule of partial writes is chosen by the kernel.", "anchors": ["src/base/buf.c: sid_buf_write_all, sid_buf_write", "src/base/buf-type-linear.c: _buf_linear_write", "src/base/buf-type-vector.c: _buf_vector_write"]}
{"id": "C11", "title": "Vector buffer keeps added items intact", "statement": "Adding items (data or zero-filled slots) to a vector buffer never changes the items added before.", "quantifier": "all contents and all add calls, including zero-filled adds", "why_tests_cant": "The claim is about every history of calls; a test replays one history.", "anchors": ["src/base/buf-type-vector.c: _buf_vector_add"]}
{"id": "C12", "title": "Hash table behaves as a finite map", "statement": "After any sequence of add, update and delete calls, a lookup in the hash table returns the data and data length most recently stored under that key, or nothing if the key is absent, and the entry count equals the number of distinct keys.", "quantifier": "all keys (arbitrary bytes), table sizes and call sequences", "why_tests_cant": "The claim is about every history of calls; a test replays one history.", "anchors": ["src/internal/hash.c: hash_add, hash_update, hash_del, hash_lookup, hash_get_entry_count"]}
{"id": "C13", "title": "Hash table iteration is complete and duplicate free", "statement": "Iterating over a hash table visits every stored entry exactly once.", "quantifier": "all table contents", "why_tests_cant": "The claim ranges over unboundedly many inputs; a test fixes finitely many of them.", "anchors": ["src/internal/hash.c: hash_get_first, hash_get_next, hash_iter"]}
{"id": "C14", "title": "Linked list operations preserve the ring", "statement": "After any sequence of list initialisation, insertion and removal, walking the list forward yields the elements in the expected order, walking backward yields the reverse, and the reported size is the number of elements.", "quantifier": "all sequences of insertions of unlinked elements and removals of linked elements", "why_tests_cant": "The claim is about every history of calls; a test replays one history.", "anchors": ["src/internal/list.c: list_init, list_add, list_del, list_get_size, list_is_empty"]}
{"id": "C15", "title": "B+ tree behaves as a finite map", "statement": "After any sequence of add, update and delete calls, a lookup in the B+ tree returns the data most recently stored under that key, or nothing if the key is absent, for every tree order the constructor accepts.", "quantifier": "all orders, all keys and all call sequences", "why_tests_cant": "The claim is about every history of calls; a test replays one history.", "anchors": ["src/internal/bptree.c: bptree_add, bptree_update, bptree_del, bptree_lookup"]}
{"id": "C16", "title": "B+ tree stays balanced", "statement": "After any sequence of operations all leaves of the B+ tree are at the same depth, keys are strictly sorted, and every node except the root is at least half full and never overfull, so lookups take logarithmically many steps.", "quantifier": "all orders and all call sequences", "why_tests_cant": "The claim is about every history of calls; a test replays one history.", "anchors": ["src/internal/bptree.c: _insert, _insert_into_leaf_after_splitting, _insert_into_node_after_splitting, _delete_entry, _coalesce_nodes, _redistribute_nodes"]}
{"id": "C17", "title": "B+ tree iteration is ordered and complete", "statement": "Iterating the whole B+ tree yields every stored key exactly once in strictly ascending order; iterating with a prefix yields exactly the stored keys having that prefix, in order; iterating a range yields exactly the keys in the range.", "quantifier": "all tree contents, prefixes and ranges", "why_tests_cant": "The claim ranges over unboundedly many inputs; a test fixes finitely many of them.", "anchors": ["src/internal/bptree.c: bptree_iter_create, bptree_iter_create_prefix, bptree_iter_next, bptree_iter"]}
{"id": "C18", "title": "B+ tree aliases share one record", "statement": "After an alias is added for a key, lookups and updates through either name see the same record, the reference count equals the number of names of the record, and deleting one name leaves all others intact.", "quantifier": "all tree contents and all sequences of add, alias, update and delete", "why_tests_cant": "The claim is about every history of calls; a test replays one history.", "anchors": ["src/internal/bptree.c: bptree_add_alias, bptree_del, bptree_lookup"]}
{"id": "C19", "title": "Key-value store returns what was stored", "statement": "sid_kvs_get returns exactly the bytes or vector items stored by the latest successful sid_kvs_set of the key (concatenated for merged vectors), with matching size and flags; other keys are unaffected.", "quantifier": "all values, value kinds (scalar/vector, copied/referenced, merged), keys and call sequences outside transactions", "why_tests_cant": "The claim is about every history of calls; a test replays one history.", "anchors": ["src/resource/kvs.c: sid_kvs_set, sid_kvs_get, _create_kv_store_value"]}
{"id": "C20", "title": "Key-value update callbacks are authoritative", "statement": "A store update whose callback refuses (returns 0) leaves the store unchanged; if it accepts, the value the callback leaves in place is stored; the callback always sees the current old value of the key.", "quantifier": "all stores, callbacks and keys", "why_tests_cant": "Quantifies over all callbacks.", "anchors": ["src/resource/kvs.c: _update_fn, _unset_fn, sid_kvs_set, sid_kvs_unset"]}
{"id": "C21", "title": "Transactions roll back atomically", "statement": "Ending a transaction with rollback restores the store to its content at transaction begin, whatever operations ran in it.", "quantifier": "all initial contents and all operation sequences inside the transaction", "why_tests_cant": "The claim is about every history of calls; a test replays one history.", "anchors": ["src/resource/kvs.c: sid_kvs_transaction_begin, sid_kvs_transaction_end, _rollback_fn, _update_fn, _unset_fn"]}
{"id": "C22", "title": "Transactions commit what was done", "statement": "Ending a transaction with commit leaves the store in the state obtained by executing the same operations without a transaction.", "quantifier": "all initial contents and all operation sequences inside the transaction", "why_tests_cant": "The claim is about every history of calls; a test replays one history.", "anchors": ["src/resource/kvs.c: sid_kvs_transaction_end, _unset_fn"]}
{"id": "C23", "title": "Archiving keeps the previous value", "statement": "Setting or unsetting a key with an archive key leaves the value the key had before under the archive key.", "quantifier": "all store contents, keys and archive keys", "why_tests_cant": "The claim ranges over unboundedly many inputs; a test fixes finitely many of them.", "anchors": ["src/resource/kvs.c: _update_fn, _unset_fn, _set_archive"]}
{"id": "C24", "title": "Resource children are ordered by priority", "statement": "Whatever resources are created, attached, re-prioritised and removed, iterating a resource's children visits each child (other than those marked as not to be walked into) exactly once, in non-decreasing priority order, children of equal priority in order of attachment.", "quantifier": "all resource trees and all sequences of operations", "why_tests_cant": "The claim is about every history of calls; a test replays one history.", "anchors": ["src/resource/res.c: _add_res_to_parent_res, sid_res_set_prio, sid_res_iter_next"]}
{"id": "C25", "title": "Resource reference counting", "statement": "A resource is destroyed exactly once, exactly when its last reference is dropped, its children are destroyed with it, and no operation reaches a destroyed resource.", "quantifier": "all resource trees and all sequences of create, ref, unref, add child and isolate", "why_tests_cant": "The claim is about every history of calls; a test replays one history.", "anchors": ["src/resource/res.c: sid_res_create, sid_res_ref, sid_res_unref, _do_sid_res_unref, sid_res_isolate"]}
{"id": "C26", "title": "Resource search is sound and complete", "statement": "A resource search returns only resources matching the requested type and id, finds one whenever a matching resource is reachable by the requested method without crossing a restricted boundary, and never crosses such boundaries.", "quantifier": "all trees, flags, methods and search keys", "why_tests_cant": "The claim ranges over unboundedly many inputs; a test fixes finitely many of them.", "anchors": ["src/resource/res.c: sid_res_search, _search_down, _search_up"]}
{"id": "C27", "title": "Event counters bound handler invocations", "statement": "An event source whose counter is set to n fires at most n more times; relative and absolute counter updates saturate and never wrap around.", "quantifier": "all counter values and update sequences", "why_tests_cant": "The claim is about every history of calls; a test replays one history.", "anchors": ["src/resource/res.c: sid_res_ev_set_counter, _handle_event_counter"]}
{"id": "C28", "title": "Database keys are uniquely decodable", "statement": "Composing a database key from its parts and decomposing it again yields the same parts, so two records share a key only if all their parts agree.", "quantifier": "all part values without the separator character", "why_tests_cant": "The claim ranges over unboundedly many inputs; a test fixes finitely many of them.", "anchors": ["src/resource/ubr.c: _do_compose_key, _decompose_key, _get_key_part, _get_ns_from_key, _get_op_from_key"]}
{"id": "C29", "title": "Namespace isolation of module records", "statement": "Two different modules, or the same module processing two different devices, never address the same record through a module-, device- or device-module-private namespace; user records never collide with the daemon's own records.", "quantifier": "all module names, device ids and keys a module may pass", "why_tests_cant": "The claim ranges over unboundedly many inputs; a test fixes finitely many of them.", "anchors": ["src/resource/ubr.c: sid_ucmd_kv_set, sid_ucmd_kv_get, _get_ns_part, _do_compose_key"]}
{"id": "C30", "title": "Write protection of foreign records", "statement": "A module cannot change a record owned by another module unless the record's owner granted the matching foreign/subordinate/superior write permission; the owner and the core can always write.", "quantifier": "all owners, writers, flags and stored records", "why_tests_cant": "Quantifies over all module names and permission flag combinations.", "anchors": ["src/resource/ubr.c: _check_kv_wr_allowed, _kv_cb_write, _mod_match, _do_sid_ucmd_kv_set"]}
{"id": "C31", "title": "Read protection of foreign records", "statement": "A module can read a record owned by another module only if the matching foreign/subordinate/superior read permission was granted; otherwise the read fails with -EPERM.", "quantifier": "all owners, readers, flags and stored records", "why_tests_cant": "The claim ranges over unboundedly many inputs; a test fixes finitely many of them.", "anchors": ["src/resource/ubr.c: _cmd_get_key_value, _mod_match"]}
{"id": "C32", "title": "Key reservations are exclusive", "statement": "A reserved key can be re-reserved or unreserved only by the module that reserved it (or the core), and a key reserved globally by one module cannot be written by another module without granted permission.", "quantifier": "all modules, keys and sequences of reserve, unreserve and set", "why_tests_cant": "The claim is about every history of calls; a test replays one history.", "anchors": ["src/resource/ubr.c: sid_ucmd_kv_reserve, sid_ucmd_kv_unreserve, _kv_cb_reserve, _check_global_kv_rs_for_wr"]}
{"id": "C33", "title": "Set records: step delta", "statement": "Updating a set-valued record with SET, PLUS or MINUS stores exactly new, old union new, or old minus new, in sorted order without duplicates, and the reported plus/minus deltas are exactly the added and the removed items.", "quantifier": "all sorted old and new item sets", "why_tests_cant": "The claim ranges over unboundedly many inputs; a test fixes finitely many of them.", "anchors": ["src/resource/ubr.c: _delta_step_calc, _kv_cb_delta_step"]}
{"id": "C34", "title": "Set records: accumulated delta", "statement": "After any number of updates to a set-valued record since the last synchronisation, the accumulated plus and minus records hold exactly the items added and removed with respect to the state at that synchronisation.", "quantifier": "all initial sets and all update sequences", "why_tests_cant": "The claim is about every history of calls; a test replays one history.", "anchors": ["src/resource/ubr.c: _delta_abs_calc, _delta_update, _do_kv_delta_set"]}
{"id": "C35", "title": "Set records: synchronisation merges concurrent workers", "statement": "Applying the accumulated delta of a worker to the main store's current set removes and adds exactly the items that worker removed and added; if nobody else changed the set the main store ends up with the worker's set, and deltas of workers touching disjoint items commute.", "quantifier": "all worker snapshots, main store states and orders of arrival", "why_tests_cant": "Interleavings of worker synchronisations are unbounded.", "anchors": ["src/resource/ubr.c: _sync_main_kv_store, _kv_cb_delta_step, _build_cmd_kv_buffers"]}
{"id": "C36", "title": "Newest event wins in the main store", "statement": "After any sequence of synchronised writes to a key the main store holds the value with the highest sequence number, whatever the order of arrival; a record with an older sequence number never replaces a newer one.", "quantifier": "all sequences and orders of synchronised records", "why_tests_cant": "Arrival order of worker messages is a schedule.", "anchors": ["src/resource/ubr.c: _kv_cb_main_set, _kv_cb_main_unset, _sync_main_kv_store"]}
{"id": "C37", "title": "Export and import are inverse", "statement": "Serialising records for the main process or the database file and loading them again reproduces keys, flags, sequence numbers, owners and data exactly, and every well-formed export is consumed completely.", "quantifier": "all record lists, scalar and vector values", "why_tests_cant": "The claim ranges over unboundedly many inputs; a test fixes finitely many of them.", "anchors": ["src/resource/ubr.c: _build_cmd_kv_buffers, _sync_main_kv_store"]}
{"id": "C38", "title": "Only changed records are exported, once", "statement": "A worker exports to the main process exactly the records flagged for synchronisation since the previous export; a record exported once is not exported again until it is changed.", "quantifier": "all sequences of record updates and exports", "why_tests_cant": "The claim is about every history of calls; a test replays one history.", "anchors": ["src/resource/ubr.c: _build_cmd_kv_buffers, _manage_kv_index, _check_kv_index_needed, _process_cmd_unsbuf"]}
{"id": "C39", "title": "Device ready state machine", "statement": "The ready state of a device only moves along permitted transitions (never back to undefined, to unprocessed only from undefined, to unconfigured only from unprocessed, elsewhere only from a defined state) and only in scan phases that permit it; a refused change leaves the state as it was.", "quantifier": "all sequences of state change requests and phases", "why_tests_cant": "The claim is about every history of calls; a test replays one history.", "anchors": ["src/resource/ubr.c: _do_sid_ucmd_dev_set_ready, _do_sid_ucmd_dev_get_ready"]}
{"id": "C40", "title": "Device reserved state machine", "statement": "The reserved state of a device never returns to undefined and becomes unprocessed only from undefined; changes are refused in phases lacking the capability, leaving the state as it was.", "quantifier": "all sequences of state change requests and phases", "why_tests_cant": "The claim is about every history of calls; a test replays one history.", "anchors": ["src/resource/ubr.c: _do_sid_ucmd_dev_set_reserved, _do_sid_ucmd_dev_get_reserved"]}
{"id": "C41", "title": "Scan phases run in order with guaranteed cleanup", "statement": "A scan executes its phases in the documented order; if a middle phase fails, the error phase and then the exit phase run exactly once and no further phase runs; the exit phase runs exactly once in every scan whose init phase succeeded.", "quantifier": "all outcomes of all phase handlers, both scan kinds and stages", "why_tests_cant": "Quantifies over all module behaviours.", "anchors": ["src/resource/ubr.c: _cmd_exec_scan, _cmd_scan_phase_regs"]}
{"id": "C42", "title": "Command life cycle", "statement": "A command sends its response exactly once per stage; a command exporting to the main process responds only after the main process acknowledged the export (or nothing had to be exported); it terminates in finished or error state, never executes in a terminal state, and yields its worker exactly then.", "quantifier": "all commands, handler outcomes and event orders", "why_tests_cant": "Event orders are schedules.", "anchors": ["src/resource/ubr.c: _cmd_handler, _change_cmd_state, _is_last_stage"]}
{"id": "C43", "title": "Client requests are validated", "statement": "A client request is executed only if the client is privileged or the command is open to everybody; requests with an unknown command number, a short header or another protocol version are answered with a failure and never executed.", "quantifier": "all request messages and client credentials", "why_tests_cant": "All byte strings a client can send.", "anchors": ["src/resource/ubr.c: _check_msg, _create_cmd_res, _socket_client_is_capable, _reply_failure, _init_command"]}
{"id": "C44", "title": "Worker assignment is exclusive", "statement": "A worker is handed out as idle only if it finished its previous assignment (its yield was received) and was not assigned, exiting or exited; a worker that exited is never used again.", "quantifier": "all schedules of assignments, yields, timeouts and exits", "why_tests_cant": "Schedules of processes and signals.", "anchors": ["src/resource/wrk-ctl.c: sid_wrk_ctl_get_idle_worker, _make_worker_exit, _on_worker_proxy_channel_event, _on_worker_proxy_child_event, _change_worker_proxy_state"]}
{"id": "C45", "title": "Worker channel delivers messages in order", "statement": "Data messages sent over a worker channel are delivered to the peer's callback in order, each exactly once with exactly the sent bytes (plus the configured suffix), whatever the fragmentation of the stream.", "quantifier": "all message sequences and fragmentations", "why_tests_cant": "Fragmentation is chosen by the kernel.", "anchors": ["src/resource/wrk-ctl.c: _chan_buf_send, _chan_buf_recv, _detect_fd_read_data_suffix"]}
{"id": "C46", "title": "Module lookup by name or alias", "statement": "Looking a module up by its name or by one of its aliases finds a registered module having that name or alias whenever there is one, and loading a module that is already registered returns the registered one instead of loading it twice.", "quantifier": "all registries, names and aliases", "why_tests_cant": "The claim ranges over unboundedly many inputs; a test fixes finitely many of them.", "anchors": ["src/resource/mod-reg.c: sid_mod_reg_get_mod, sid_mod_reg_load_mod, _find_module"]}
{"id": "C47", "title": "Service link groups notify every interested member", "statement": "A notification sent to a group reaches exactly the members whose notification mask includes it; merging groups moves all members of the source into the destination.", "quantifier": "all groups, masks and notifications", "why_tests_cant": "The claim ranges over unboundedly many inputs; a test fixes finitely many of them.", "anchors": ["src/iface/srv-lnk.c: sid_srv_lnk_notify, sid_srv_lnk_grp_notify, sid_srv_lnk_grp_merge, sid_srv_lnk_grp_clone"]}
{"id": "C48", "title": "String vector combine and split are inverse", "statement": "Joining strings with a delimiter and tokenising the result yields the original strings again; prefix/suffix tests and reverse substring search agree with their mathematical meaning.", "quantifier": "all strings without delimiter or quote characters", "why_tests_cant": "The claim ranges over unboundedly many inputs; a test fixes finitely many of them.", "anchors": ["src/internal/util.c: util_str_comb_to_strv, util_strv_get_from_str, util_str_rstr, util_str_combstr"]}
{"id": "C49", "title": "Group membership is consistent in both directions", "statement": "After any sequence of adding and removing devices to and from groups, a device is listed among a group's members iff the group is listed in the device's membership record.", "quantifier": "all sequences of group operations on all groups and devices", "why_tests_cant": "The claim is about every history of calls; a test replays one history.", "anchors": ["src/resource/ubr.c: _handle_devs_for_group, sid_ucmd_grp_create, sid_ucmd_grp_add_current_dev, sid_ucmd_grp_del_current_dev, sid_ucmd_grp_destroy, _delta_update"]}
{"id": "C50", "title": "Device stack queries compute the transitive closure", "statement": "On an acyclic device stack, the ancestor/descendant search returns exactly the devices reachable over one or more dependency steps and the base/top search returns exactly the reachable devices with no further dependencies.", "quantifier": "all acyclic device graphs", "why_tests_cant": "The claim ranges over unboundedly many inputs; a test fixes finitely many of them.", "anchors": ["src/resource/ubr.c: _do_sid_ucmd_dev_stack_get, _get_dev_imm_deps, _strv_add_strv, _strv_add_str"]}
{"id": "C51", "title": "Device identity is stable", "statement": "A device keeps the identifier recorded for it: an identifier already known to the daemon or to udev is reused, and a new one is generated only if neither knows the device.", "quantifier": "all combinations of stored and imported identifiers", "why_tests_cant": "The claim ranges over unboundedly many inputs; a test fixes finitely many of them.", "anchors": ["src/resource/ubr.c: _set_dev_kvs, _dev_alias_to_devid"]}
{"id": "C52", "title": "Printed documents are well formed", "statement": "The JSON output produced by the formatting functions for any properly nested sequence of documents, arrays, elements and fields with plain text contents is syntactically valid JSON.", "quantifier": "all properly nested sequences of formatting calls", "why_tests_cant": "The claim ranges over unboundedly many inputs; a test fixes finitely many of them.", "anchors": ["src/internal/fmt.c"]}
{"id": "C53", "title": "Client result accessor", "statement": "sid_ifc_rsl_get_data returns the payload that follows the header of the received reply (or of the passed memory file), and nothing if the reply signals failure; command names and types map one-to-one.", "quantifier": "all replies", "why_tests_cant": "The claim ranges over unboundedly many inputs; a test fixes finitely many of them.", "anchors": ["src/iface/ifc.c: sid_ifc_rsl_get_data, sid_ifc_cmd_type_to_name, sid_ifc_cmd_name_to_type"]}
{"id": "C54", "title": "Every device number is accepted", "statement": "A scan request is accepted for every device number the kernel can produce (12-bit major, 20-bit minor), and the daemon decodes the same major and minor.", "quantifier": "all device numbers", "why_tests_cant": "2^32 device numbers.", "anchors": ["src/iface/ifc.c: _add_devt_env_to_buffer", "src/resource/ubr.c: _parse_cmd_udev_env"]}
{"id": "C55", "title": "Database generation increases", "statement": "Every daemon start uses a generation number one higher than the one stored in the loaded database, starting with 1.", "quantifier": "all sequences of restarts", "why_tests_cant": "The claim is about every history of calls; a test replays one history.", "anchors": ["src/resource/ubr.c: _set_up_kv_store_generation"]}
{"id": "C56", "title": "Hash table with several values per key", "statement": "When entries are added with the call that allows several values per key, a plain lookup returns the newest remaining value, a lookup with data returns the newest value with those contents, the lookup with count returns the newest value and the number of values, and deleting by data removes exactly one value with those contents.", "quantifier": "all histories of multi-value add, delete, delete-by-data and wipe calls", "why_tests_cant": "The claim is about every history of calls; a test replays one history.", "anchors": ["src/internal/hash.c: hash_add_allow_multiple, hash_lookup_with_data, hash_del_with_data, hash_lookup_with_count"]}
{"id": "C57", "title": "Modules are consulted only when the device is ready for it", "statement": "During a scan, next-layer phases call no module unless the device is publicly ready, and current-layer phases call none unless it is private, flat or public (a device without a type module is made public first); a completed first stage leaves no device unprocessed; in each phase block modules are called in registration order before the type module, in exit phases after it and in reverse order.", "quantifier": "all sets of modules, all behaviours of module functions, all device states", "why_tests_cant": "The claim ranges over unboundedly many inputs; a test fixes finitely many of them.", "anchors": ["src/resource/ubr.c: _exec_block_mods, _exec_type_mod, _cmd_exec_scan_a_current, _cmd_exec_scan_a_next, _cmd_exec_scan_a_post_current, _cmd_exec_scan_a_post_next, _cmd_exec_scan_a_exit, _cmd_scan_phase_regs"]}
{"id": "C58", "title": "Reading without framing appends what was received", "statement": "Reads into a buffer without size prefix append exactly the received bytes in order behind the earlier content, whatever the fragmentation, and report end of input only when the input has ended.", "quantifier": "all buffer histories, all byte streams, all schedules of short reads and errors", "why_tests_cant": "The claim ranges over unboundedly many inputs; a test fixes finitely many of them.", "anchors": ["src/base/buf-type-linear.c: _buffer_linear_read_plain", "src/base/buf.c: sid_buf_read"]}
{"id": "C59", "title": "B+ tree entry and size accounting", "statement": "After any sequence of add, alias, update and delete calls, the number of entries the B+ tree reports is the number of distinct records reachable through some key, and the data size it reports is the sum of the sizes of these records.", "quantifier": "all orders and all call sequences", "why_tests_cant": "The claim is about every history of calls; a test replays one history.", "anchors": ["src/internal/bptree.c: bptree_get_num_entries, bptree_get_size, _make_record, _destroy_record, bptree_add"]}
{"id": "C60", "title": "Key-value store releases each stored value exactly once", "statement": "Whatever sequence of sets (with or without callbacks, archive keys, vectors, references) and unsets is made, the memory the store holds for values is exactly one live value for each key that is present: no value is lost, none is released twice, and none is released while a key still refers to it. The same holds after a transaction that writes each key at most once is rolled back.", "quantifier": "every history of set and unset calls, every callback answering yes or no, both backends", "why_tests_cant": "A leak or double release shows up only for particular interleavings of overwriting, archiving, refusing and rolling back; tests sample a few.", "anchors": ["src/resource/kvs.c: _update_fn, _unset_fn, _rollback_fn, sid_kvs_transaction_end"]}
{"id": "C61", "title": "Requests carry exactly the client's data", "statement": "A request that succeeds has put on the wire exactly one message: a header with the given sequence number, command and flags, and then for a scan the device number and every environment variable, for a checkpoint the device number, the name and those requested variables that are set, otherwise the given data. A request that fails or is still being sent has put on the wire a beginning of that message.", "quantifier": "every environment, request, and every way the socket accepts, interrupts or refuses the bytes", "why_tests_cant": "Short writes and interruptions can split the message anywhere and the contents are unbounded; tests send a few requests over a local socket.", "anchors": ["src/iface/ifc.c: sid_ifc_req, _add_scan_env_to_buf, _add_checkpoint_env_to_buf, _add_devt_env_to_buf", "src/base/buf.c: sid_buf_write_all"]}
{"id": "C62", "title": "A scan imports the client's whole environment", "statement": "Every variable of the environment sent with a scan request becomes a udev variable of the device in the daemon, with the same value, whatever the other variables are.", "quantifier": "every environment of the client", "why_tests_cant": "Whether one variable's form affects the import of others depends on the combination; tests use well-formed environments.", "anchors": ["src/resource/ubr.c: _parse_cmd_udev_env, _device_add_field", "src/iface/ifc.c: _add_scan_env_to_buf"]}
{"id": "C63", "title": "Complete reads", "statement": "sid_util_fd_read_all returns the next bytes of the descriptor in order, exactly the requested number or all of them up to end of file, consumes nothing beyond, retries interruptions, and fails only with an error the descriptor reported.", "quantifier": "every content, every requested length, every sequence of short reads, interruptions and errors", "why_tests_cant": "The number and position of short reads and interruptions is unbounded.", "anchors": ["src/base/util.c: sid_util_fd_read_all"]}
{"id": "C64", "title": "Kernel command line arguments", "statement": "sid_util_kernel_get_arg reports an argument exactly if it is a word of the kernel command line, alone or followed by = and a value, never because it is part of another word; the value it returns is the text after the equals sign.", "quantifier": "every command line and every argument name", "why_tests_cant": "Any word may contain the name as a part at any position; tests cover chosen lines.", "anchors": ["src/base/util.c: sid_util_kernel_get_arg"]}
{"id": "C65", "title": "Numbers from the environment", "statement": "sid_util_env_get_ull accepts a variable exactly if its value is a decimal number that fits and lies in the requested range, and returns that number.", "quantifier": "every environment, key and range", "why_tests_cant": "All strings are possible values; tests try a few.", "anchors": ["src/base/util.c: sid_util_env_get_ull"]}
{"id": "C66", "title": "Priorities are as set", "statement": "After sid_res_set_prio has succeeded, sid_res_get_prio returns the priority that was set.", "quantifier": "all resource trees and histories", "why_tests_cant": "The claim is about every position in every tree; a test uses one.", "anchors": ["src/resource/res.c: sid_res_set_prio, sid_res_get_prio"]}
{"id": "C67", "title": "Iterators go both ways", "statement": "Among the children of a resource, sid_res_iter_previous leads back the way sid_res_iter_next came; from the start it visits the children in reverse order.", "quantifier": "all resource trees and all sequences of next, previous and reset", "why_tests_cant": "Sequences of calls are unbounded; a test replays one.", "anchors": ["src/resource/res.c: sid_res_iter_next, sid_res_iter_previous, sid_res_iter_reset"]}
{"id": "C68", "title": "Questions about what a search would find", "statement": "sid_res_search_match says whether any resource of the type and id is covered by the method, and sid_res_search_match_res says whether the given resource is, in both cases without heeding restricted boundaries.", "quantifier": "all trees, flags, methods and search keys", "why_tests_cant": "The claim ranges over unboundedly many trees; a test fixes finitely many of them.", "anchors": ["src/resource/res.c: sid_res_search_match, sid_res_search_match_res"]}
{"id": "C69", "title": "Relative times of timers do not wrap around", "statement": "A timer created or re-armed with a relative time is set to exactly the current time plus that time; if that is not representable or the clock cannot be read, an error is returned and the timer is not set.", "quantifier": "all clock values and intervals", "why_tests_cant": "2^128 combinations of clock and interval.", "anchors": ["src/resource/res.c: sid_res_ev_create_time, sid_res_ev_rearm_time"]}
{"id": "C70", "title": "Lines with a key and a value", "statement": "Reading a line of the form key=value (blanks around key, equals sign and value ignored, the value optionally in single or double quotes) yields exactly that key and value; a line of blanks is reported as empty, every other line is refused, and no memory outside the line is read.", "quantifier": "all lines", "why_tests_cant": "The lines come from the output of other programs; a test fixes finitely many of them.", "anchors": ["src/internal/util.c: util_str_get_kv", "src/modules/ucmd/type/dm/lvm/lvm.c: _process_out_line"]}
{"id": "C71", "title": "Full names tell modules apart", "statement": "The full name of a module is the path of registries and modules that leads to it. Modules loaded before their registry was attached below another module get the longer full name when it is attached, and two modules with the same full name have the same name and are in registries at the same path.", "quantifier": "all registry ids and module names without a slash, all histories of loading and unloading, all depths of attached registries", "why_tests_cant": "Names depend on the order of loading and attaching and on arbitrary texts; tests use a few fixed names.", "anchors": ["src/resource/mod-reg.c: _set_module_name, sid_mod_reg_reset_mods, sid_mod_reg_add_mod_subreg, sid_mod_get_full_name"]}
{"id": "C72", "title": "Listings are valid JSON", "statement": "Asked for JSON, each listing command (versions, statistics, resources, devices, database dump) prints exactly one valid JSON text, and reading it back gives exactly what there is: every resource below its parent, every device with its fields, every record with key, generation, sequence number, flags, owner and values, in order.", "quantifier": "all versions and statistics, all resource trees, all sets of devices and database records with plain text", "why_tests_cant": "The text is assembled from pieces written by different functions and even different processes, with commas depending on what was written before; the number and nesting of the pieces is unbounded.", "anchors": ["src/resource/ubr.c:_cmd_exec_version", "src/resource/ubr.c:_cmd_exec_resources", "src/resource/ubr.c:_cmd_exec_devices", "src/resource/ubr.c:_cmd_exec_dbstats", "src/resource/ubr.c:_build_cmd_kv_buffers", "src/resource/ubr.c:_print_vvalue", "src/resource/res.c:sid_res_tree_write", "src/tools/sidctl/sidctl.c:_sid_cmd_version"]}
{"id": "C73", "title": "systemd is told exactly what is notified", "statement": "The string handed to systemd for a notification consists of exactly the lines the notification asks for: STATUS= and ERRNO= with the value of the first line of the message that begins with that key, READY=1, RELOADING=1, STOPPING=1, WATCHDOG=1 and WATCHDOG=trigger. Whatever the text of the message is, none of the state lines appears unless it is notified, and nothing else is said.", "quantifier": "all notification masks and all message texts", "why_tests_cant": "The claim ranges over all message texts, including those with line breaks and keys inside; a test fixes finitely many of them.", "anchors": ["src/iface/srv-lnk.c: _notify_systemd, _get_arg_value"]}
{"id": "C74", "title": "Memory handed to the key-value store is freed exactly once", "statement": "When a value is stored by reference with the request that the store free it, the store frees that memory exactly once, when the value is replaced, unset, refused or dropped by a rollback, never while the value can still be read under some key (also an archive key); memory not handed over in this way is never freed.", "quantifier": "every sequence of sets and unsets, with or without archiving, with any keys, flags and refusing callbacks, outside transactions and across committed or rolled back transactions", "why_tests_cant": "A double free or a leak shows only for particular sequences of replacing, archiving and rolling back; tests try a few.", "anchors": ["src/resource/kvs.c: sid_kvs_set, sid_kvs_unset, sid_kvs_transaction_end, _create_kv_store_value, _destroy_kv_store_value"]}
{"id": "C75", "title": "A request that is answered succeeds", "statement": "sid_ifc_req succeeds for every request whose message can be made up from the environment and the given data, if the daemon answers with a message that has a header (and passes its file for a database dump), however the socket splits, delays or interrupts the transfer in either direction, unless a system call reports an error other than an interruption or try again.", "quantifier": "every request and environment, every reply of at least a header, every fragmentation of the transfer in both directions", "why_tests_cant": "The claim is about every split of the bytes and every reply length including the bare header; tests exchange a few messages over a local socket.", "anchors": ["src/iface/ifc.c: sid_ifc_req", "src/base/buf-type-linear.c: _buffer_linear_read, _buffer_linear_write"]}
{"id": "C76", "title": "Modules are told the event the client saw", "statement": "While a scan request is processed, what modules are told about the event is what the environment in the request says: action and device type are those named by ACTION and DEVTYPE (in any mix of small and capital letters, unknown for any other word), the device path is DEVPATH and the device name is what follows its last slash, sequence number, disk sequence and partition number are the decimal numbers of SEQNUM, DISKSEQ and PARTN, the synthetic UUID is SYNTH_UUID; if a variable occurs more than once the last counts, and if it is missing the attribute has its neutral value. The text made of disk sequence and partition number is the same for two events only if they are about the same disk or partition.", "quantifier": "every environment: any number of variables, in any order, with any values, and every pair of events", "why_tests_cant": "The claim is about every order, repetition and mix of letters in the environment and about all pairs of numbers; tests send a few environments.", "anchors": ["src/resource/ubr.c: _device_add_field, _parse_cmd_nullstr_udev_env, sid_ucmd_ev_get_dev_action, sid_ucmd_ev_get_dev_name, sid_ucmd_ev_get_dev_diskseq", "src/internal/util.c: util_udev_str_to_action, util_udev_str_to_devtyoe"]}
{"id": "C77", "title": "The module of a device is the one of its driver", "statement": "For a block device whose major number the kernel lists, the type module used is the one named like the driver in the section of block devices of /proc/devices, with dashes replaced by underscores, never one of a character device with the same number; for an NVMe device with a number of the extended range it is nvme, and for any other partition with such a number the module of the whole disk; a device without a driver has none. Once found, the module of a device stays the same whatever modules write.", "quantifier": "every table of drivers the kernel can print, every major number, device name and type, and every sequence of writes of modules afterwards", "why_tests_cant": "The claim is about every table and every order of its lines; tests see the table of one machine.", "anchors": ["src/resource/ubr.c: _lookup_mod_name, _owner_name_from_blkext, _get_base_mod_name", "src/base/util.c: sid_util_sysfs_get"]}
{"id": "C78", "title": "Output as assignments reads back as the fields written", "statement": "A client that asks for the output as assignments (one NAME=value per line) and takes every line for an assignment reads exactly the names and values that were written, in the order they were written, whatever documents, elements and headings they were nested in: texts as they are, numbers in decimal, binary values in base64, truth values as 1 or 0, and lists of texts as one value with the texts between quotation marks and commas between them. In a table every field is a line with the name, a colon, a blank and the value.", "quantifier": "every nesting of documents, elements, fields and lists of texts, of any depth and length, with every name without an equals sign and every name and value without a newline", "why_tests_cant": "tests compare a few outputs with literals; the claim is about every nesting of every number of fields with arbitrary names and values", "anchors": ["src/internal/fmt.c: fmt_doc_start, fmt_doc_end, fmt_arr_start, fmt_arr_end, fmt_elm_start, fmt_elm_end, fmt_elm_name, fmt_fld_str, fmt_fld_bin, fmt_fld_uint, fmt_fld_int64, fmt_fld_bool, fmt_arr_fld_str, fmt_arr_fld_uint"]}
{"id": "C79", "title": "udev is told exactly the variables set during a scan", "statement": "When a device is scanned, the client receives exactly the udev variables that the request and the modules set for this device in this stage, each once with the value given last, unless that value is empty or the variable was unset; variables of other devices, of earlier stages and commands, and reserved names are not told, and the lines `usid scan` prints read back as exactly these assignments and the state of the daemon.", "quantifier": "every sequence of imports, sets, unsets, reservations and other writes of all modules in a stage, every device, every earlier contents of the store, and every text", "why_tests_cant": "Which variables are told depends on the whole history of the store: flags left over from earlier commands, index entries made and dropped, denied writes; tests look at a few histories only.", "anchors": ["src/resource/ubr.c: _build_cmd_kv_buffers, _do_sid_ucmd_kv_set, _device_add_field, _process_cmd_unsbuf", "src/tools/usid/usid.c: _print_env_from_rsl, _usid_cmd_print_env"]}
{"id": "C80", "title": "The ready state of a device-mapper device follows its events", "statement": "The ready state the daemon gives out for a device-mapper device depends only on the events it was sent: a device seen for the first time in a real add event without a cookie is unconfigured until the device is resumed; a change event with the cookie the kernel gave makes it private, flat or public as the flags in the upper half of the cookie ask for; a device found suspended is unavailable; other events leave the state as it is; a cookie is taken if and only if it is a number from 1 to 2^32-1.", "quantifier": "every history of events of a device, with every cookie text, action, synthetic or not, device readable and suspended or not, in one worker process or in several", "why_tests_cant": "The state depends on the whole history of events and passes through the permissions of phases and the defaults of the core at the end of each scan; tests replay a few histories.", "anchors": ["src/modules/ucmd/type/dm/dm.c: _get_cookie_props, _get_sysfs_props, _dm_scan_a_init, _dm_scan_pre", "src/resource/ubr.c: _set_dev_kvs, _exec_scan_core, sid_ucmd_dev_set_ready, sid_ucmd_dev_get_ready"]}
{"id": "C81", "title": "udev is told the flags of the cookie of a device-mapper device", "statement": "For an event of a device-mapper device that can be read, the reply sets each of the sixteen flag variables to 1 exactly if the cookie has that flag, or if the ready state asks for it (no rules for disks for flat devices, neither these nor other rules for private, unavailable and uninitialised devices), and does not set the others, whatever the request had for them; and it sets the name and the identifier of the device as sysfs has them.", "quantifier": "every cookie, every history of the device and of the store, every set of variables in the request and set by modules before", "why_tests_cant": "The claim is about all cookies and all earlier contents of the store, and joins the module with the export of variables; tests look at a few cookies.", "anchors": ["src/modules/ucmd/type/dm/dm.c: _dm_scan_a_exit, _dm_scan_a_init, _udev_cookie_flag_names", "src/resource/ubr.c: _build_cmd_kv_buffers"]}
{"id": "C82", "title": "The cookie of a device-mapper event is completed exactly once", "statement": "For every event with a cookie, the process that waits for udev is released exactly once, with the number in the lower half of the cookie of that event, after the event was processed; events without a cookie release nobody.", "quantifier": "every history of events of a device, each served by a worker process", "why_tests_cant": "A process of another program waits forever if the cookie is not completed, and one that was completed twice releases somebody else; whether this happens depends on all failures and the order of the phases.", "anchors": ["src/modules/ucmd/type/dm/dm.c: _udevcomplete, _dm_scan_action_current, _dm_scan_remove_init, _get_cookie_props, _dm_scan_error"]}
{"id": "C83", "title": "Logical volumes are told to udev under the names LVM gave them", "statement": "For a device-mapper device whose identifier begins with LVM-, udev is told as DM_VG_NAME, DM_LV_NAME and DM_LV_LAYER exactly the group, volume and layer names its device-mapper name was composed of, also if they have hyphens, whatever happened to the device before. Devices that are not volumes of LVM are treated as if the LVM module was not installed, and no scan of them fails because of it.", "quantifier": "all names LVM permits, all histories of events of a device, all contents of the request, all kinds of other devices", "why_tests_cant": "the names range over all byte strings with hyphens in any place, and whether the module handles a device depends on records of earlier events and on what the worker process served before", "anchors": ["src/modules/ucmd/type/dm/lvm/lvm.c: _unquote, _store_component_names, _lvm_subsys_match_current", "src/modules/ucmd/type/dm/dm.c: _dm_submod_common_scan_init"]}
{"id": "C84", "title": "A logical volume that is being initialised is not to be used until LVM says it is done", "statement": "From a resume whose cookie says that the volume is being initialised until a cookie that does not say so, the ready state told for the volume is one in which nobody uses it, and udev is told to leave it alone; after that it has the state the cookie asks for.", "quantifier": "all histories of events of a volume (adding, resuming with any cookie, suspending, synthetic events, removal), all cookies", "why_tests_cant": "the state depends on the whole history of events, on the order of two modules' decisions and on flags kept between events", "anchors": ["src/modules/ucmd/type/dm/lvm/lvm.c: _lvm_scan_pre", "src/modules/ucmd/type/dm/dm.c: _dm_scan_pre, _dm_scan_a_exit"]}
{"id": "C85", "title": "Disks are claimed for multipath exactly when multipath says so, and a disk once left to others is not taken back lightly", "statement": "When a disk is scanned, udev is told DM_MULTIPATH_DEVICE_PATH=1 if libmpathvalid is sure that the disk is a path, or says yes and the disk has not been left to others since libmpathvalid was last sure (or since the beginning), and 0 otherwise. If libmpathvalid gives no answer, the scan of the module fails and nothing is told. The word nompath on the kernel command line, with or without a value, turns all of this off. What other modules do and what happens to other devices makes no difference. Partitions of a claimed disk are told 1 as well.", "quantifier": "All histories of events of any devices with any answers of libmpathvalid, any calls of other modules in between, any kernel command line", "why_tests_cant": "The answer depends on the whole history of the device, kept in the database between events which other modules write to as well; tests try some sequences.", "anchors": ["src/modules/ucmd/block/dm_mpath/dm_mpath.c:_dm_mpath_scan_next", "src/modules/ucmd/block/dm_mpath/dm_mpath.c:_is_parent_multipathed", "src/modules/ucmd/block/dm_mpath/dm_mpath.c:_kernel_cmdline_allow", "src/resource/ubr.c:sid_ucmd_kv_get_disk_part"]}
{"id": "C86", "title": "A module serving a partition can read what was recorded for the disk the partition is on", "statement": "sid_ucmd_kv_get_disk_part called while a partition is served returns the value which was set last, in the namespace of devices, under the same key while the whole disk was served, subject to the read permissions of the record.", "quantifier": "All databases and histories of calls of modules, all disks and partitions, all keys", "why_tests_cant": "Whether the record is found depends on how devices are identified in keys in all other places; a test that writes the record by hand under the expected key would pass.", "anchors": ["src/resource/ubr.c:sid_ucmd_kv_get_disk_part", "src/resource/ubr.c:_part_get_whole_disk", "src/resource/ubr.c:_canonicalize_kv_key", "src/resource/ubr.c:_get_ns_part"]}
{"id": "C87", "title": "What was found on a device is told to udev under udev's names and without special characters", "statement": "After the contents of a block device have been probed, the variables told to udev are exactly those udev's own tool would set for the values found (type, usage, version, identifiers, label, partition table and entry, ids of ISO images), under the same names, and texts chosen by whoever wrote the contents (identifiers, labels, names) are told in the rewritten form of the probing library, so that nobody can have udev set other variables by what they write onto a device.", "quantifier": "every list of values a probe finds, every behaviour of the library's rewriting functions, every state of the database and everything told before in the same command", "why_tests_cant": "The values come from the medium and are unlimited; a test writes a few file systems with harmless labels and identifiers.", "anchors": ["src/modules/ucmd/block/blkid/blkid.c:_add_property", "src/modules/ucmd/block/blkid/blkid.c:_blkid_scan_next"]}
{"id": "C88", "title": "The module called for the contents of a device is the one for what is on it now", "statement": "After a device was probed, the module called for the layer above it is the one for the type of contents found by this probe; if nothing was found, or something no module is for, none is called.", "quantifier": "every history of probes of any devices and of calls by other modules, every type of contents", "why_tests_cant": "It depends on everything found on the device before; a test probes a device once or twice.", "anchors": ["src/modules/ucmd/block/blkid/blkid.c:_add_property", "src/modules/ucmd/block/blkid/blkid-type-mapper.gperf", "src/resource/ubr.c:_cmd_exec_scan_a_next"]}
{"id": "C89", "title": "What a device lies on is recorded as the kernel shows it", "statement": "After an event of a disk other than its removal, the database lists the disk as lying on exactly the disks the kernel lists for it (by their sequence numbers), and lists it with each of these; a partition lies on exactly the disk it is a part of; a removed device lies on nothing. If this cannot be found out, the scan says so.", "quantifier": "every state of the database a worker can get into, every device, every content of sysfs with numbers as the kernel writes them", "why_tests_cant": "depends on what sysfs shows at the time and on all records kept so far; a test has one machine with one stack and cannot remove files of sysfs", "anchors": ["src/resource/ubr.c: _get_dep_dev_dseq, _update_disk_deps_from_sysfs, _update_part_deps_from_sysfs, _update_dev_deps_from_sysfs", "src/base/util.c: sid_util_sysfs_get"]}
{"id": "C90", "title": "usid tells udev the truth about the daemon and passes on what it replies", "statement": "usid scan and usid checkpoint pass every variable of the daemon's reply on to udev, each on its line and in order, followed by SID_STATUS=active, if and only if the daemon was reached, answered in full, in the protocol of the tool, with success. If it answers that the command failed nothing is passed on and the exit status says so. Without a daemon the status is inactive and the exit status of scan and checkpoint is success. Status active is printed only if such an answer came, inactive only if the connection was refused. Used wrongly the tool asks nothing. An answered request comes to an end.", "quantifier": "every environment, arguments, reply of the daemon, splitting of the transfers by the socket and interruptions", "why_tests_cant": "The output depends on where the socket splits the messages, on the contents of the reply and on the time the daemon goes away; tests see one splitting of one reply.", "anchors": ["src/tools/usid/usid.c:_usid_cmd_print_env", "src/tools/usid/usid.c:_print_env_from_rsl", "src/tools/usid/usid.c:_get_ubr_status", "src/tools/usid/usid.c:_usid_cmd_active", "src/tools/usid/usid.c:_usid_cmd_version", "src/tools/usid/usid.c:main", "src/iface/ifc.c:sid_ifc_req"]}
{"id": "C91", "title": "sidctl prints what the daemon sends, whole, and succeeds only then", "statement": "sidctl dbdump, dbstats, resources and devices send the daemon the command with the format chosen (of several the last one; table without any) and print the text of the reply (for the database: of the file passed), all of it and nothing else. The exit status is success only if the daemon was reached and the whole of a reply came that says success; otherwise nothing is printed and the tool fails. Used wrongly the tool fails and asks nothing.", "quantifier": "every arguments and options, reply and file of the daemon, splitting of the transfers by the socket and interruptions", "why_tests_cant": "As for usid; the outcome depends on the splitting and on contents of any size.", "anchors": ["src/tools/sidctl/sidctl.c:_sid_cmd", "src/tools/sidctl/sidctl.c:_get_format", "src/tools/sidctl/sidctl.c:main", "src/iface/ifc.c:sid_ifc_req"]}
{"id": "C92", "title": "What is to be kept survives a restart of the daemon", "statement": "When the database was saved and the daemon is started again, every record marked as persistent that was in the database is there again with the same value, flags, owner, sequence and generation numbers, under the same name; modules read after the restart what they read before; records not marked are gone and no record appears that was not there.", "quantifier": "every content of the database at the moment of saving, every key and record, every module, namespace and device reading", "why_tests_cant": "a test restarts with the few records it made; the claim is about every content of the store, including archived copies, records without data and sizes no test writes", "anchors": ["src/resource/ubr.c:_build_cmd_kv_buffers", "src/resource/ubr.c:_sync_main_kv_store", "src/resource/ubr.c:_load_kv_store", "src/resource/ubr.c:_set_up_kv_store_generation", "src/resource/ubr.c:sid_ucmd_kv_get"]}
{"id": "C93", "title": "A crash while the database is saved leaves the old or the new one", "statement": "When the process that saves the database is killed at any moment, or fails, the next start of the daemon finds either the database saved before or the new one complete: never a part of it, never a mixture of both, and never nothing if there was something before.", "quantifier": "every file before, every content to be written, every moment at which the worker is killed, every order of the bytes being copied, and two workers saving at the same time", "why_tests_cant": "a test cannot kill the process between any two stores to a mapped file, nor in every order of the bytes of a copy", "anchors": ["src/resource/ubr.c:_build_cmd_kv_buffers", "src/resource/ubr.c:_send_out_cmd_expbuf", "src/resource/ubr.c:_load_kv_store", "src/base/buf-type-linear.c:_buffer_linear_realloc", "src/base/buf-type-linear.c:_buffer_linear_add", "src/base/buf-type-linear.c:_buffer_linear_fd_get"]}
{"id": "C94", "title": "A logged message is shown according to verbosity, once, with its prefixes, text and error", "statement": "After the log has been set up, a message is output if and only if the verbosity asks for its priority (standard streams: or it is to be printed at any verbosity): up to notice by default, with one -v also info, with more also debug. It is output once on the target in force at that time, with the prefix of the log and those of the message in order, the text, and the description of the error number. Once the handle of the log is required, messages logged without it are not output: the first is replaced by an error that says so. The daemon logs to the journal with -j, else to the standard streams with -f, else to syslog. False for syslog: with two prefixes or more (each message about a resource has them) only the last prefix is sent and the text is lost; errors logged with their error number about resources have the priority of debug messages; syslog and the journal never show the error.", "quantifier": "all sequences of calls of the log after its set-up, all messages, prefixes, levels, verbosities, targets, contents of the stack buffer, options of the daemon", "why_tests_cant": "Message text is bounded by a stack buffer and depends on the history of target and prefix changes; tests look at single messages on one target, not at each length of prefixes, verbosity and history.", "anchors": ["src/log/log.c: sid_log_init, sid_log_init_with_handle, sid_log_change_tgt, sid_log_set_pfx, sid_log_voutput", "src/log/log-target-standard.c: _log_standard_open, _log_standard_output", "src/log/log-target-syslog.c: _log_syslog_open, _log_syslog_output", "src/log/log-target-journal.c: _log_journal_open, _log_journal_output", "src/resource/res.c: sid_res_log_output", "src/daemon/sid.c: main"]}
{"id": "C95", "title": "Which volume group is activated after a physical volume has been scanned", "statement": "When a device is a physical volume of LVM, the scan runs pvscan for exactly that device; if pvscan reports that this device completed a volume group, exactly that volume group is then activated, once, and no other; if it reports none (or the device is no physical volume), nothing is activated.", "quantifier": "all outputs of pvscan and vgchange, all sets of submodules and answers, all failures to run a program, to store or to remove a record", "why_tests_cant": "Tests give the daemon a few outputs of pvscan; that every output, of any length and with any lines, leads to the right activation and to no other can only be shown for all outputs.", "anchors": ["src/modules/ucmd/type/dm/lvm/lvm.c: _process_out_line, _lvm_subsys_match_next, _lvm_scan_next, _lvm_scan_action_next", "src/modules/ucmd/type/dm/dm.c: _exec_dm_submod, _dm_scan_next, _dm_scan_action_next", "src/resource/wrk-ctl.c: sid_wrk_ctl_run_new_worker", "src/internal/util.c: util_str_iterate_tokens, util_str_get_kv, util_str_comb_to_strv"]}
{"id": "C96", "title": "Iterating a key-value store reports what gets report", "statement": "After any history of sets and unsets, the loop `while (sid_kvs_iter_next(...))` over a store that keeps its keys in order reports each key a get would find exactly once, in ascending order, with the data, size and flags a get returns; created with a prefix it reports exactly the keys that begin with it, created with a range exactly those from its start to its end.  A store over a hash table reports each key exactly once.", "quantifier": "all histories of set and unset calls with any callbacks, archive keys and flags, all B+ tree orders and hash size hints, all prefixes and ranges", "why_tests_cant": "The result depends on the shape of the tree or the chains of the table after a whole history and on which values exist; tests see a few histories only.", "anchors": ["src/resource/kvs.c: sid_kvs_iter_create, sid_kvs_iter_create_prefix, sid_kvs_iter_next, _iter_get_data", "src/internal/bptree.c: bptree_iter_next", "src/internal/hash.c: hash_get_first, hash_get_next"]}
{"id": "C97", "title": "Database statistics are exact", "statement": "The statistics the daemon reports for its database count every key pair once, every key with its NUL, and for every value the memory the store has for it and the memory of the caller it refers to; the internal size agrees with the size the store itself has counted update by update, so that no size mismatch is logged.", "quantifier": "all histories of set and unset calls with any values, flags and callbacks, any contents of referenced memory", "why_tests_cant": "The size the store counts is the result of all updates so far; that it agrees with a recount must hold after every history.", "anchors": ["src/resource/ubr.c: _write_kv_store_stats", "src/resource/kvs.c: sid_kvs_iter_current_size, sid_kvs_get_size, _create_kv_store_value"]}
{"id": "C98", "title": "A worker gets its ends of its channels, and an external program nothing else", "statement": "When a worker is created, the creating process keeps exactly one end of each wire asked for (it writes to a pipe to the worker, reads from a pipe to the proxy, has one end of a socket pair) and the worker has exactly the opposite ends; all other descriptors are as they were in the creating process. If a worker cannot be created, for lack of descriptors at any point or because the fork fails, the creating process has exactly the descriptors it had. An external program run as a worker starts with each channel under the descriptor number asked for, with pipes for which none is asked under their own, and with nothing else.", "quantifier": "all descriptor tables and limits of the creating process, all lists of channel specifications, all outcomes of pipe, socketpair and fork, all redirection targets", "why_tests_cant": "the failure may hit any of the calls, and which descriptor numbers are used depends on all descriptors that happen to be open in the process; a test sees one table", "anchors": ["src/resource/wrk-ctl.c:_create_channel", "src/resource/wrk-ctl.c:_create_channels", "src/resource/wrk-ctl.c:_setup_channel", "src/resource/wrk-ctl.c:_close_non_channel_fds", "src/resource/wrk-ctl.c:_do_worker_control_get_new_worker", "src/resource/wrk-ctl.c:_run_external_worker"]}
{"id": "C99", "title": "An end of a channel is held by its process only, and no descriptors pile up", "statement": "After any history of workers being created, failing to be created, beginning to run, ending and being noticed to have ended, the daemon has the descriptors it started with plus one for each channel of each worker not yet noticed to have ended; when all have been noticed it has those it started with. A worker's end of a channel is held by no other process, so that the daemon sees the end of the stream once the worker has ended. The daemon's end is held by no running worker, so that a worker sees the end of the stream once the daemon has closed it.", "quantifier": "all initial descriptor tables, all histories of creating, failing, starting, ending and reaping workers in any interleaving, all channel specifications", "why_tests_cant": "a leaked or inherited descriptor shows only as a missing end of stream after a particular interleaving of forks and exits; histories are unbounded", "anchors": ["src/resource/ubr.c:_worker_init_fn", "src/resource/wrk-ctl.c:_do_worker_control_get_new_worker", "src/resource/wrk-ctl.c:_run_internal_worker", "src/resource/wrk-ctl.c:_on_worker_proxy_child_event", "src/resource/wrk-ctl.c:_destroy_worker_proxy"]}
{"id": "C100", "title": "The daemon's processes tell each other exactly what a command waits for", "statement": "In the daemon as a whole (main process, any number of workers, udev), every command gets exactly the messages it waits for: an acknowledgement only for records it exported, and only after the main process took them over; an answer only to its own question; the message that udev is done only if it is the scan whose response udev got, once, and after that response. When the response to a scan is sent, the main process has taken over everything the scan exported until then. When nothing moves any more in a worker and no message was lost, each of its commands is finished, failed, or waits for an event udev still works on, with a timeout armed. What a worker exported is taken over even if the worker ends at once.", "quantifier": "all histories with any number of workers and commands: any interleaving of handlers, messages, timeouts, udev events and ends of workers, any outcome of commands and of sending, any messages lost", "why_tests_cant": "the interleaving of several processes and udev is unbounded, and a message that reaches the wrong command or comes too early shows only as a hung client or a stage started too soon", "anchors": ["src/resource/ubr.c:_worker_proxy_recv_fn", "src/resource/ubr.c:_worker_proxy_recv_system_cmd_sync", "src/resource/ubr.c:_worker_recv_fn", "src/resource/ubr.c:_worker_recv_system_cmd_sync", "src/resource/ubr.c:_worker_recv_system_cmd_umonitor", "src/resource/ubr.c:_on_ubridge_umonitor_event", "src/resource/ubr.c:_send_out_cmd_expbuf", "src/resource/ubr.c:_cmd_handler", "src/resource/wrk-ctl.c:_on_worker_proxy_child_event"]}
{"id": "C101", "title": "Records keep their values when they are marked for synchronisation", "statement": "Modules store and reserve records; a record with the flag for synchronisation gets a second name in the store (the index), and loses it when it is overwritten without the flag. Marking and unmarking never changes what any key reads back: after any calls a module gets for every key exactly what a plain map from keys to records would return, the walk over the index reports exactly the marked records with their values, each once and in order, every value in memory belongs to exactly one key outside the index, and no key leads to memory that was freed.", "quantifier": "all sequences of reservations in the main process followed by all sequences of set, reserve and unreserve calls of any modules in a worker, with any namespaces, names, values, flags and contexts; for the answers: all get calls", "why_tests_cant": "the effect depends on which keys share a leaf of the tree behind the store and on their order there; tests with a few keys that never change the flag do not see it", "anchors": ["src/resource/kvs.c: sid_kvs_set, sid_kvs_get, sid_kvs_unset, sid_kvs_add_alias", "src/resource/ubr.c: _manage_kv_index, _do_sid_ucmd_kv_set, sid_ucmd_kv_get, _do_sid_ucmd_mod_reserve_kv", "src/internal/bptree.c: bptree_add_alias, bptree_update, _remove_entry_from_node"]}
{"id": "C102", "title": "A module asking for the aliases of a device gets exactly those it has", "statement": "At any time in a worker, sid_ucmd_dev_alias_get returns exactly the aliases that were added to the device and not removed or renamed since, restricted to the module and the category asked for (if any), each once and in order, and writes their number and success; if they cannot be read the call says so.", "quantifier": "all histories of calls of modules in a worker (aliases added, renamed, removed, groups, exports), all devices, all modules that ask, all restrictions", "why_tests_cant": "the result depends on all the calls before and on how names of aliases are put together and taken apart again; tests with a few names without separators do not see it", "anchors": ["src/resource/ubr.c: sid_ucmd_dev_alias_get, _cmd_get_key_spec_value, _get_key_strv_from_vvalue, _key_parts_match, _decompose_key"]}
{"id": "C103", "title": "The memory of arrays returned to modules is sound", "statement": "A module that asks for the devices below or above a device, or for its aliases, gets NULL or one block of memory that belongs to it: an array of the announced number of pointers, each to a terminated string in the same block, with exactly the names found. While the array is put together no memory outside of a block is read or written, nothing is used after it was freed and nothing is freed twice; afterwards every other block is as it was before the call. If an allocation fails at any point the call returns NULL and an error, and leaves no memory behind.", "quantifier": "all databases whose names are strings, all kinds of searches, all starting points, all depths of the stack, all states of memory, all patterns of failing allocations", "why_tests_cant": "the number and order of allocations depends on the shape of the stack and any of them may fail; an array that is one byte short or freed twice on a rare path does not show in tests", "anchors": ["src/resource/ubr.c: sid_ucmd_dev_stack_get, _do_sid_ucmd_dev_stack_get, _get_dev_imm_deps, _get_key_strv_from_vvalue, _strv_add_strv, _strv_add_str, _dev_key_to_dsq, sid_ucmd_dev_alias_get"]}
{"id": "C104", "title": "The store holds exactly the memory its contents take", "statement": "Whatever calls are made on a B+ tree and whichever of their allocations fail: no call uses a key after it was freed or takes a node that was not allocated; a call that adds a name and lacks memory at any point reports a failure and leaves the tree as it was, and every other call does what it is made for; after every call the blocks allocated and the size reported are exactly those of the tree, its nodes, keys and records; each key object counts as many references as there are nodes holding it. Destroying the tree frees every block and tells the caller of every name once, in order, with its data and the number of names left for them.", "quantifier": "all orders, all sequences of add, alias, update and delete calls with any names and data, all patterns of failing allocations", "why_tests_cant": "references to one key object are spread over leaves and inner nodes by splits, merges and borrowing at any depth, and an allocation can fail at any of them; tests see a few shapes and no failures", "anchors": ["src/internal/bptree.c: _make_bkey, _destroy_bkey, _ref_bkey, _unref_bkey, _make_node, _make_node_list, _number_of_nodes_needed, _destroy_node, _insert, _delete_entry, _remove_entry_from_node, _adjust_root, bptree_add, bptree_add_alias, bptree_del, bptree_update, bptree_destroy, bptree_destroy_with_fn"]}
{"id": "C105", "title": "Starting sid gives one server on its socket, detached if in the background", "statement": "Whenever a started sid comes to serve requests, in the foreground or in the background and whatever the environment and the inherited descriptors are, it does so on a listening stream socket with the daemon's abstract address, which programs it runs do not inherit. A socket passed by the service manager is the one that is used. While the address is in use and no socket is passed, no second sid comes to serve. In the background the server is in a session of its own without a terminal and does not lead it, in the root directory, with umask 0077, with standard streams on /dev/null, and nothing the caller had open stays open. If nothing fails it does come to serve; if setting up fails no descriptor is left open and the exit status is not 0.", "quantifier": "every inherited descriptor table, environment, process and limit on descriptors; every combination of failing system calls", "why_tests_cant": "a test starts the daemon in one environment with the descriptors of the test runner; failing fork, setsid, bind or listen and closed standard streams are not produced", "anchors": ["src/daemon/sid.c:_become_daemon", "src/daemon/sid.c:main", "src/resource/ubr.c:_set_up_ubridge_socket", "src/resource/ubr.c:_init_ubridge", "src/base/comms.c:sid_comms_unix_create", "src/resource/sid.c:_init_sid"]}
{"id": "C106", "title": "A hash table holds exactly the memory its entries take", "statement": "Whatever calls are made on a hash table and whichever allocations fail, nothing undefined happens, and since its creation exactly two blocks for the table and one for each entry it counts are allocated, together as many bytes as it reports for itself. A call that cannot allocate reports -1 and leaves table and memory as they were; a call that reports success changed the table as it does with enough memory. Destroying the table, or failing to create it, leaves as much in use as before. With enough memory every call succeeds.", "quantifier": "every size hint, every sequence of calls (with callbacks of updates that themselves add entries), every pattern of failing allocations", "why_tests_cant": "tests do not make the n-th allocation fail for each n and each history, and do not compare blocks in use with entries", "anchors": ["src/internal/hash.c:hash_create", "src/internal/hash.c:_do_hash_insert", "src/internal/hash.c:_do_hash_del", "src/internal/hash.c:hash_update", "src/internal/hash.c:hash_wipe", "src/internal/hash.c:hash_destroy", "src/internal/hash.c:hash_add_allow_multiple", "src/internal/hash.c:hash_get_size"]}
{"id": "C107", "title": "After a start the database has the identifier of this boot", "statement": "Once the daemon is up, the database's record of the boot identifier is the identifier the kernel gives for this boot, as a terminated string and nothing more, whatever an earlier start left in the database; every other record, among them the generation number, is as it was. If the identifier cannot be read, that is reported, the database stays as it is, and the daemon does not come up.", "quantifier": "every database loaded at start, every content of the kernel's file and of the buffer it is read to, every error on opening it", "why_tests_cant": "a test sees one kernel's file with one length, after memory that happens to be zero, and a fresh database", "anchors": ["src/resource/ubr.c:_set_up_boot_id", "src/resource/ubr.c:_init_common", "src/internal/util.c:util_uuid_get_boot_id"]}
