{"claims": [
 {"property": "C01", "status": "proved", "theorems": ["Jungle.C01_get_returns_latest_write", "Jungle.C01_getRecordByKey", "Jungle.C01_write_accepted", "Jungle.C01_set_then_get", "Jungle.C01_setSN_then_get", "Jungle.C01_setRecordByKey_then_get", "Jungle.C01_lsm", "Jungle.C01_bloom", "Jungle.C01_bloom_no_invention"], "note": "Histories of a live handle, in the first session or after any number of closes, restarts and crashes of the kind Left describes (Reach.session); tables behind the TableSys interface (C01_get_returns_latest_write) and the concrete tables (C01_lsm). C01_bloom and C01_bloom_no_invention: the same reads with Bloom filters in the tables, for any filter without false negatives (C28)."},
 {"property": "C02", "status": "partial", "theorems": ["Jungle.C02_deleted_stays_deleted", "Jungle.C02_del_then_get", "Jungle.C02_delSN_then_get", "Jungle.C02_delRecord_then_get", "Jungle.C02_lsm", "Jungle.C02_bloom_partial", "Jungle.C02_bloom_violation"], "note": "Without Bloom filters (the default configuration) for every history. With Bloom filters the property is false of the code: a deletion flushed to level 0 is not added to the filter of its table, so the older value in a deeper level is returned (C02_bloom_violation). C02_bloom_partial: with filters it holds for every key whose last write is not a flushed deletion."},
 {"property": "C03", "status": "partial", "theorems": ["Jungle.C03_snapshot_partial", "Jungle.C03_latest_partial", "Jungle.C03_flushed_partial", "Jungle.C03_removed_log_violation", "Jungle.C03_empty_partition_violation", "Jungle.C03_l0_compaction_violation", "Jungle.C03_compaction_violation"], "note": "For every reachable state (writes, batches, syncs, flushes, checkpoints, table maintenance): a snapshot above the last flushed number shows exactly the newest versions up to its number and keeps doing so under any writes, syncs, flushes and log-file removals. The latest state and flushed checkpoints: the right answer or SNAPSHOT_NOT_FOUND. The full statement is false: four violations (log file of a listed checkpoint removed: null dereference; empty table in a partition: SNAPSHOT_NOT_FOUND; checkpoint opened during a level-0 compaction shows a later write; compaction after opening loses keys)."},
 {"property": "C04", "status": "partial", "theorems": ["Jungle.C04_numbers_increase", "Jungle.C04_automatic_number", "Jungle.C04_old_number_refused_partial", "Jungle.C04_rotation_violation", "Jungle.C04_restart_reuse_violation", "Jungle.C04_torn_numbers"], "note": "uniqueness and growth are proved; refusal of an old caller-supplied number is proved except when the write opens a new log file, where the code accepts it (witness proved). Histories include restarts (Reach.session)."},
 {"property": "C05", "status": "proved", "theorems": ["Jungle.C05_getRecord_complete", "Jungle.C05_getRecord_sound", "Jungle.C05_getRecord_unused", "Jungle.C05_getSN"], "note": ""},
 {"property": "C06", "status": "partial", "theorems": ["Jungle.C06_flush_invisible_partial", "Jungle.C06_flush_defined_partial", "Jungle.C06_gap_violation", "Jungle.C06_unsynced_violation", "Jungle.C06_flush_after_unsynced_violation"], "note": "proved for the bounds DB.FlushSeq describes (everything, a synced or beyondLastSync record number, anything above the maximum); for other bounds the code loses data (witnesses proved). Histories include restarts (Reach.session)."},
 {"property": "C07", "status": "partial", "theorems": ["Jungle.C07_crash_in_flush_partial", "Jungle.C07_rerun_partial", "Jungle.C08_beyond_flush_violation"], "note": "Reads after a crash inside a flush of synced records equal reads after a crash before it; the next session may run the flush again, crash inside it again, and so on, without any read changing (C07_rerun_partial, by simulation). Missing: going on after a crash in which the flush had removed log files already; false for flushes of unsynced records (violation theorem)."},
 {"property": "C08", "status": "partial", "theorems": ["Jungle.C08_synced_survive_partial", "Jungle.C08_synced_value_partial", "Jungle.C08_sessions_partial", "Jungle.C08_torn_sessions_partial", "Jungle.C08_torn_reads_partial", "Jungle.C08_second_session_violation", "Jungle.C08_batch_after_torn_tail_violation", "Jungle.C08_batch_after_empty_reopen_violation", "Jungle.C08_checksum_violation", "Jungle.C08_beyond_flush_violation"], "note": "Proved for every history and every crash point, in the first session and after restarts that left no torn record, no log file added since the last sync, and came after a first sync (C08_sessions_partial: the next session goes on with the surviving prefix; C08_torn_sessions_partial: also after crashes inside flushes, again and again). The violation theorems show the claim is false of the code in later sessions after the other crashes."},
 {"property": "C09", "status": "proved", "theorems": ["Jungle.C09_recovers_prefix"], "note": ""},
 {"property": "C10", "status": "proved", "theorems": ["Jungle.C10_log_round_trip", "Jungle.C10_item_faithful"], "note": ""},
 {"property": "C11", "status": "partial", "theorems": ["Jungle.C11_corruption_detected_partial", "Jungle.C11_flags_violation"], "note": "The flag bytes of a record are covered by no checksum: C11_flags_violation gives a one-byte change that turns an insertion into a deletion undetected."},
 {"property": "C12", "status": "partial", "theorems": ["Jungle.C12_batch_invisible_while_running_partial", "Jungle.C12_batch_visible_after", "Jungle.C12_empty_db_violation", "Jungle.C12_flush_ignores_barrier_violation", "Jungle.C12_two_moments_partial", "Jungle.C12_reader_race_violation", "Jungle.C12_iterator_race_violation"], "note": "proved for a non-empty DB; on an empty DB the code breaks it (witness proved) A reader that loads the newest number and the barrier at two different moments of the batch is covered too (C12_two_moments_partial); if the barrier is loaded only after the batch, the code shows half of it: C12_reader_race_violation (get), C12_iterator_race_violation (iterators)."},
 {"property": "C13", "status": "proved", "theorems": ["Jungle.C13_invalid_batch_no_effect"], "note": ""},
 {"property": "C14", "status": "partial", "theorems": ["Jungle.C14_global_batch_atomic_partial", "Jungle.C14_global_batch_values_partial", "Jungle.C14_invalid_changes_nothing", "Jungle.C14_empty_db_violation", "Jungle.C14_empty_part_violation", "Jungle.C14_reader_race_violation", "Jungle.C14_dropped_part_violation"], "note": "All-or-nothing at every moment of the run and the refusal of invalid batches are proved for any number of DBs. Missing because false of the code: DBs without records (barrier 0 means no barrier), empty parts (undefined behaviour), readers interrupted between their two loads. addBatch drops batches for read-only DBs and second batches for the same DB without telling the caller. Not modelled: other writers after the clean-up of a DB, failing puts."},
 {"property": "C15", "status": "partial", "theorems": ["Jungle.C15_listing", "Jungle.C15_most_recent", "Jungle.C15_shows", "Jungle.C15_kept_partial", "Jungle.C15_flushed_state_violation", "Jungle.C15_compaction_violation"], "note": "Listed checkpoints ascend strictly, are at most maxKeepingCheckpoints many and are numbers of accepted writes; a checkpoint taken while something is unflushed stays listed, in the log and then in the tables, unless as many newer ones as are kept are listed (any later writes, syncs, flushes, checkpoints); unflushed it opens a snapshot that shows the state when it was taken. False of the code: a checkpoint taken when everything is flushed is accepted but never listed; a level-0 compaction drops listed checkpoints."},
 {"property": "C16", "status": "partial", "theorems": ["Jungle.C16_reads", "Jungle.C16_rollback_keeps", "Jungle.C16_rollback_partial", "Jungle.C16_refused", "Jungle.C16_mode", "Jungle.C16_unavailable", "Jungle.C16_gap_violation", "Jungle.C16_empty_violation", "Jungle.C16_no_ttl_violation"], "note": "With logFileTtl_sec not 0: after any sequence of writes, batches, syncs, checkpoints, rollbacks, evictions of memtables and restarts, a successful rollback(n) leaves exactly the records numbered at most n (reads by key and by number), a rollback to the number of a record succeeds and the next write gets n+1, a failed one on a non-empty database changes nothing observable. Missing, with counterexamples proved: n in a gap (next number is not n+1), a database without records (a failed rollback moves the next number), logFileTtl_sec = 0 (null memtable on the next read). Purging by flushLogs in log-section mode is not part of the executions."},
 {"property": "C17", "status": "proved", "theorems": ["Jungle.C17_live_list_exists", "Jungle.C17_iteration"], "note": "Forward loop, gotoEnd and backward loop, gotoBegin and forward loop on a reachable handle with the concrete tables, any key range. The iterator is used while no other call changes the handle."},
 {"property": "C18", "status": "partial", "theorems": ["Jungle.C18_one_turn_partial", "Jungle.C18_all_moves_partial", "Jungle.C18_moves_return", "Jungle.C18_violation", "Jungle.C18_only_written"], "note": "False of the code in general (C18_violation: a source with a single record is skipped after forward-backward-forward). Proved: one change of direction always, any moves when every log file and table shows no key or at least two. Missing: nothing else is true. For all calls and bounds, also after failed ones, only accepted insertions are returned."},
 {"property": "C19", "status": "partial", "theorems": ["Jungle.C19_seek_greater_partial", "Jungle.C19_seek_smaller_partial", "Jungle.C19_violation_smaller", "Jungle.C19_violation_stale_prev", "Jungle.C19_violation_beyond", "Jungle.C18_only_written"], "note": "GREATER proved when a live key not below k exists; the code shows an old value otherwise (C19_violation_beyond) and prev after the seek can return an old value (C19_violation_stale_prev). SMALLER is false of the code (C19_violation_smaller) and proved when every source has a key not above k."},
 {"property": "C20", "status": "partial", "theorems": ["Jungle.C20_iteration_partial", "Jungle.C20_one_turn_partial", "Jungle.C20_seek_greater_partial", "Jungle.C20_violation_seek_smaller", "Jungle.C20_violation_seek_beyond", "Jungle.C20_violation_range", "Jungle.C20_violation_range_below", "Jungle.C20_only_written"], "note": "For every reachable handle and bounds that are absent or the number of a written record: the forward and backward loops return one ascending list without repetition, of written records of the range, with every unflushed and every current record; one change of direction; seekSN GREATER inside the range. The property is false in general: seekSN SMALLER goes to the largest number, seekSN beyond the range leaves it, and bounds that are not the number of a record can show a record outside (four witnesses proved). Snapshot handles are not covered. For all calls and bounds only accepted records are returned."},
 {"property": "C21", "status": "partial", "theorems": ["Jungle.C21_side", "Jungle.C21_nearest_partial", "Jungle.C21_purged_violation", "Jungle.C21_empty_table_violation"], "note": "Live handle. Exactness is proved for every reachable database in which no key was purged from the tables while a log file in use still lists it, and no table above level 0 is empty; both restrictions are shown to be needed by reachable counterexamples. That the answer was written and lies on the right side is unconditional. Missing: snapshots; the empty key, which the code treats as \"not found\"."},
 {"property": "C22", "status": "partial", "theorems": ["Jungle.C22_complete_partial", "Jungle.bytePfx_hit", "Jungle.C22_three_tables_violation", "Jungle.C22_old_version_violation", "Jungle.C22_stale_first_violation"], "note": "For every reachable DB and every prefix, the callback gets the records of one list until it answers STOP; the newest report of each key is the live record or a deletion, so every live key with the prefix is reported with its newest value. Hypothesis: at most two tables of a level below 0 hold matching minimum keys. False beyond that (third table skipped), and false that a key is reported once or with the newest value first: old versions and deleted keys are reported, shown by witnesses."},
 {"property": "C23", "status": "partial", "theorems": ["Jungle.C23_tables_hold_last_flushed", "Jungle.C23_compaction_invisible", "Jungle.C23_crash_during_compaction", "Jungle.C23_get_unchanged", "Jungle.C23_l0only_partial", "Jungle.C23_l0only_right_or_blank_partial", "Jungle.C23_l0only_compaction_invisible", "Jungle.C23_l0only_reopen_violation", "Jungle.C23_l0only_window_violation"], "note": "With level extension (the default): all compactions (level 0 into level 1, level i into i+1 with or without refill, last level moving down, in place), complete or cancelled at any point, and cancelled + reopened. Without level extension (nextLevelExtension = false): single and merge compaction of level-0 tables, started, finished, cancelled, restarted and across reopens, keep every answer while the partition has at most two tables or was not reopened since it was last compacted; in all reachable states a read gives the right answer or OK with an empty value. The property is false there: merge compaction after a reopen (C23_l0only_reopen_violation) and the moment between listing the result and removing the sources (C23_l0only_window_violation). Table files are finite maps; one maintenance operation at a time (C32 covers the locks); the compaction callback and switching modes are not modelled."},
 {"property": "C24", "status": "partial", "theorems": ["Jungle.C24_split_merge_invisible", "Jungle.C24_ranges", "Jungle.C24_numbers", "Jungle.TableEx.C24_crash_in_merge_violation"], "note": "Split and merge change no answer and keep ranges. A crash inside mergeLevel does change answers: C24_crash_in_merge_violation."},
 {"property": "C25", "status": "proved", "theorems": ["Jungle.C25_meta_round_trip"], "note": ""},
 {"property": "C26", "status": "partial", "theorems": ["Jungle.C26_store_load", "Jungle.C26_torn_file_uses_backup", "Jungle.C26_torn_backup_harmless", "Jungle.C26_altered_byte_detected", "Jungle.C27_wrong_kind_rejected"], "note": "Exactness of the incremental store and use of the backup are proved for every history and every torn content. Not proved, because it is not a property of a 32-bit checksum: that every torn or older file is rejected; proved for one changed byte. Writes of the manifest itself are assumed to succeed."},
 {"property": "C27", "status": "proved", "theorems": ["Jungle.C27_store_load", "Jungle.C27_torn_file_uses_backup", "Jungle.C27_altered_byte_detected", "Jungle.C27_wrong_kind_rejected"], "note": ""},
 {"property": "C28", "status": "proved", "theorems": ["Jungle.C28_added_key_is_found", "Jungle.C28_save_load", "Jungle.C28_empty_filter_undefined"], "note": "Filters of size 0 divide by zero and are shown separately."},
 {"property": "C29", "status": "partial", "theorems": ["Jungle.C29_sequential", "Jungle.C29_sequential_same", "Jungle.C29_own_key", "Jungle.C29_concurrent_partial", "Jungle.C29_race_violation"], "note": "Model: table_lookup_booster.cc get/setIfNew, and TableFile::setSingle/get through it; readers interleaved with one writer. Proved: with one call at a time a read sees what was last written, for every hash function and booster size; at any interleaving a read only gets records of its own key; if no two different hash values share an element every read is at least as new as its start. False in general: a delayed reader puts an old version back after the newer one was evicted (C29_race_violation). Not modelled: torn reads of an element (the lock index and the element index differ), reads from snapshots (they bypass the booster)."},
 {"property": "C30", "status": "partial", "theorems": ["Jungle.C30_destroyed_once_unused_partial", "Jungle.C30_destroyed_at_last_partial", "Jungle.C30_sequential_partial", "Jungle.C30_leak_violation", "Jungle.C30_double_destroy_violation"], "note": "False in general: a file can leak (removal between another holder's read of the flag and its decrement) and, in log-section-only mode with snapshots, be destroyed twice. Proved without snapshot holders for at-most-once and never-in-use in every interleaving; always-destroyed only if removal does not begin inside another release; with snapshots only for non-overlapping calls."},
 {"property": "C31", "status": "proved", "theorems": ["Jungle.C31_at_most_one", "Jungle.C31_no_start_while_running", "Jungle.C31_refused_changes_nothing", "Jungle.C31_given_back", "Jungle.C31_start_after_close_violation"], "note": "Every number of threads and interleaving. The violation theorem records that an attempt that read the flag before close may still start after close."},
 {"property": "C32", "status": "proved", "theorems": ["Jungle.C32_exclusive", "Jungle.C32_locked_iff_held", "Jungle.C32_release", "Jungle.C32_acquire", "Jungle.C32_all_or_nothing"], "note": "Constructors and unlock are atomic (they run under one mutex)."},
 {"property": "C33", "status": "partial", "theorems": ["Jungle.C33_flushed_read_partial", "Jungle.C33_open_truncate", "Jungle.C33_flush_fits", "Jungle.C33_aligned", "Jungle.C33_load", "Jungle.C33_reopen", "Jungle.C33_crash", "Jungle.C33_writes", "Jungle.C33_unflushed_violation", "Jungle.C33_thread_buffer_violation", "Jungle.C33_assert_violation", "Jungle.C33_torn_status"], "note": "Proved for every history of open, append, flush and truncate and all sizes with the block dividing the buffer: flushed bytes are read back at any offset, a log file written and reopened through the layer loads exactly with its padding recognised, and a crash in a sync keeps the earlier syncs. False before a flush: C33_unflushed_violation. C33_thread_buffer_violation and C33_assert_violation are faults of the code found on the way; C33_torn_status shows a torn tail reported as a checksum error."},
 {"property": "C34", "status": "partial", "theorems": ["Jungle.C34_operators", "Jungle.C34_total_order", "Jungle.C34_cmp_partial", "Jungle.C34_cmp_order_partial", "Jungle.C34_huge_key_violation"], "note": "The three-way comparison is proved for keys shorter than 2 GiB and refuted beyond (C34_huge_key_violation)."},
 {"property": "C35", "status": "proved", "theorems": ["Jungle.C35_crc_correct", "Jungle.C35_crc_chains"], "note": ""},
 {"property": "C36", "status": "partial", "theorems": ["Jungle.C36_closing_partial", "Jungle.C36_rollback_in_progress_partial", "Jungle.C36_read_only_partial", "Jungle.C36_closing_checkpoint_violation", "Jungle.C36_readonly_flush_violation", "Jungle.C36_readonly_checkpoint_violation", "Jungle.C36_readonly_compact_violation", "Jungle.C36_snapshot_write_violation", "Jungle.C36_closing_global_batch_violation"], "note": "Proved for every state and every call except checkpoint (closing handles) and except checkpoint, flushLogs and the compaction calls (read-only handles). The full claim is false of the code: the violation theorems show checkpoint and global batches accepted on a closing handle, flush, compaction and checkpoint markers taking effect on a read-only handle, and a write through a snapshot handle."},
 {"property": "C37", "status": "partial", "theorems": ["Jungle.C37_positions_ordered", "Jungle.C37_unsynced_flushed_violation"], "note": "order of positions proved; the clause that only synced records are moved is broken by the code (witness proved)"},
 {"property": "C38", "status": "partial", "theorems": ["Jungle.C38_partition_of_stored", "Jungle.C38_flushed_is_found", "Jungle.C38_repartition_partial", "Jungle.TableEx.C38_repartition_violation"], "note": "Writing, lookup and compaction agree on the partition for every hash function; changing the number of partitions is invisible when no compaction is unfinished, and can bring back old values otherwise (violation). Prefix search not covered here."},
 {"property": "C39", "status": "partial", "theorems": ["Jungle.C39_reads_partial", "Jungle.C39_discard_partial", "Jungle.C39_refused_changes_nothing", "Jungle.C39_accepted", "Jungle.C39_synced_violation", "Jungle.C39_comes_back_violation", "Jungle.C39_flushed_unsynced_violation", "Jungle.C39_empty_node_violation"], "note": "Proved for every execution with discards (writes, batches, syncs, flushes, checkpoints, table maintenance): what discardDirty removes and keeps, reads afterwards, no number reuse, errors change nothing. False parts are shown by witnesses: a synced record is discarded (and comes back after reopening), a record written to tables by a flush with an explicit number above the last synced one stays visible, a fully discarded key leaves a node on which key searches dereference end(). Not covered: concurrent readers, unloaded memtables."},
 {"property": "C40", "status": "proved", "theorems": ["Jungle.C40_find", "Jungle.C40_le", "Jungle.C40_ge", "Jungle.C40_prev", "Jungle.C40_next_removed", "Jungle.C40_traverse", "Jungle.C40_insert", "Jungle.C40_erase", "Jungle.C40_size", "Jungle.C40_free"], "note": "Pointer-level model of the skip list, one call at a time, any heights, duplicates allowed or refused. Backward traversal gives each node once only if keys are distinct (with equal keys prev skips them; the by-key index refuses duplicates). Calls at the same time are property C47."},
 {"property": "C41", "status": "partial", "theorems": ["Jungle.C41_memtable_present", "Jungle.C41_not_purged_in_use", "Jungle.C41_evict_invisible"], "note": "Eviction and reload: the table is present while in use (all interleavings of grab, done and the reclaimer), and in log-section mode a memtable that is deleted and loaded again changes no read (all histories of LogReach). Missing: the two combined in one concurrent model, and the time a file expires (left open, any file the reclaimer may take)."},
 {"property": "C42", "status": "partial", "theorems": ["Jungle.C42_name_id_correspond_partial", "Jungle.C42_zero_byte_violation", "Jungle.C42_long_name_violation", "Jungle.C42_damaged_manifest_violation"], "note": "False for names with zero bytes or of 256 bytes and more, and when the DB manifest file is damaged (the backup is written but never read)."},
 {"property": "C43", "status": "partial", "theorems": ["Jungle.C43_no_lost_wakeup_partial", "Jungle.C43_asleep_only_if_empty_partial", "Jungle.C43_signal_progress", "Jungle.C43_delayed_request_violation", "Jungle.C43_spurious_failure_violation"], "note": "False with delayed requests in the queue and with spurious failures of compare_exchange_weak (both shown); proved otherwise for any number of requesters and interleaving."},
 {"property": "C44", "status": "partial", "theorems": ["Jungle.C44_one_per_db", "Jungle.C44_order", "Jungle.C44_handlers_kept", "Jungle.C44_latest_wins_partial", "Jungle.C44_weakened_violation"], "note": "Merging overwrites the sequence number, so a request can be weakened (shown). Order, one per DB and handlers are proved."},
 {"property": "C45", "status": "proved", "theorems": ["Jungle.C45_numbers_distinct", "Jungle.C45_numbers_consecutive", "Jungle.C45_numbers_distinct_after_reopen"], "note": "For fewer than 2^64-1 numbers in total; reopening starts from the stored counter (C27)."},
 {"property": "C46", "status": "proved", "theorems": ["Jungle.C46_no_deadlock"], "note": "Global batches take the write mutexes in the order of the paths; single writers take one. Throttling and the DB operations under the mutexes are left out."},
 {"property": "C47", "status": "partial", "theorems": ["Jungle.C47_find", "Jungle.C47_le", "Jungle.C47_lt", "Jungle.C47_ge_partial", "Jungle.C47_ge_violation", "Jungle.C47_next", "Jungle.C47_grow", "Jungle.C47_waits", "Jungle.C47_ends", "Jungle.C47_writer"], "note": "Proved for every schedule of one inserting thread (step by step: search, one pointer store per layer, publication, counts) and a reader (step by step): exact search, at-or-below and below answer as a search in one content the index had during the call; a step of a traversal passes over nothing; waiting only for a node being linked; end of the call. False for at-or-above (C47_ge_violation: the reader meets a node that is linked and not published, waits for it, and then goes on with the node after it, which may have been inserted later; the node it waited for is skipped although it was inserted, and its call returned, before the one that is given). Proved for at-or-above: 'nothing' is right, and a node given is in the index and nothing of one of the contents is passed over. Not modelled here: removals at the same time (discardDirty and purge in a memory table), weak memory orders, several inserting threads (the log's write mutex excludes them)."},
 {"property": "C48", "status": "proved", "theorems": ["Jungle.C48_close_and_reopen", "Jungle.C48_next_session"], "note": "Reads: any history of PReach (all calls, flushes of unsynced records too, earlier restarts). The next session: histories without flushes of unsynced records, at least one write; restarts are orderly closes, or crashes at rest or during a sync that leave the newest log file ending between two records and no log file added since the last sync."},
 {"property": "C49", "status": "partial", "theorems": ["Jungle.C49_rollback_durable_partial", "Jungle.C49_crash_partial", "Jungle.C49_crash_violation", "Jungle.C49_power_violation", "Jungle.C49_reader_violation"], "note": "Log-section mode with logFileTtl_sec not 0, non-empty database. Proved: after a successful rollback(n) a restart shows exactly the records up to n and the history goes on from there; a process crash at any point of the rollback is atomic if no log file was begun after record n. Counterexamples proved for the rest: with later log files a crash between the truncation and the manifest write leaves a hole; the truncation is not synced, so a power failure after OK brings records back; a reader that holds a removed log file deletes a new, synced file of the same name when it is closed. With truncateInconsecutiveLogs the positive theorems need numbers without gaps (see C50)."},
 {"property": "C50", "status": "partial", "theorems": ["Jungle.C50_restart_partial", "Jungle.C50_crash_partial", "Jungle.C50_crash_new_file_partial", "Jungle.C50_manifest", "Jungle.C50_gap_violation", "Jungle.C50_hollow_violation"], "note": "Proved for every history of LogReach (which includes rollbacks, evictions and earlier restarts): restarts after a sync lose nothing; crashes at rest or during a sync, with at most one log file added since the last sync, keep a prefix with every synced record (with a new log file: only with truncateInconsecutiveLogs). With truncateInconsecutiveLogs = true, the default, this needs numbers without gaps. Counterexamples proved: an explicit gap at a log file boundary loses synced records on an orderly restart; two log files added since the last sync, a crash, and the next session's synced writes are lost at the restart after it."},
 {"property": "C51", "status": "partial", "theorems": ["Jungle.C51_safe_partial", "Jungle.C51_last_close_partial", "Jungle.C51_groups_partial", "Jungle.C51_open_close_violation", "Jungle.C51_double_destroy_violation", "Jungle.C51_two_closes_violation", "Jungle.C51_spurious_violation", "Jungle.C51_null_handle_violation", "Jungle.C51_group_violation", "Jungle.C51_duplicate_open_violation"], "note": "Proved for any number of threads when no open looks the path up between the decision of a close to destroy the database and the removal from the map: handles are alive, the same object, and counted. With closes that do not overlap the last one closes the database. The full claim is false of the code: seven counterexamples."},
 {"property": "C52", "status": "partial", "theorems": ["Jungle.C52_synced_survive_partial", "Jungle.C52_sessions_partial", "Jungle.C52_manifest_lists_files", "Jungle.C52_empty_sync_violation", "Jungle.C52_log_section_violation", "Jungle.C52_race_violation"], "note": "Proved for all histories in which no sync comes before the first write and no write runs between the store of the manifest and the clearing of the flag inside a sync. Both gaps are real: C52_empty_sync_violation, C52_log_section_violation, C52_race_violation lose a record for which a sync returned OK."},
 {"property": "C53", "status": "partial", "theorems": ["Jungle.C53_power_failure_partial", "Jungle.C53_process_crash_partial", "Jungle.C53_forgotten_fsync_violation"], "note": "Proved for power failures at rest and histories in which sync(false) has only the newest log file to write (and that file was synced before). Without this restriction the property is false: C53_forgotten_fsync_violation, sync(true) does not call fsync for the older log files that a sync(false) wrote."},
 {"property": "C54", "status": "proved", "theorems": ["Jungle.Avl.C54_contents", "Jungle.Avl.C54_walk", "Jungle.Avl.C54_search", "Jungle.Avl.C54_window"], "note": "The tree of src/avltree.cc, with its stored balance factors and rotations as written. Parent pointers are represented by paths. C54_window connects it to the list that the model of the merging iterators (C05) keeps."},
 {"property": "C55", "status": "partial", "theorems": ["Jungle.C55_built_partial", "Jungle.C55_numbers", "Jungle.C55_files_partial", "Jungle.C55_flushed_violation", "Jungle.BuilderEx.C55_files_violation", "Jungle.BuilderEx.C55_order_violation", "Jungle.BuilderEx.C55_delete_violation", "Jungle.BuilderEx.C55_number_violation"], "note": "Proved for ascending keys (files: no overlap, number 0 the lowest), with any calls after opening. False in general: files whose number 0 is not the lowest and keys in another order lose records, deletions become live records, numbers can be doubled, and no flushed number is reported. Not covered: closing and opening again after the build, crashes during the build, an empty build followed by writes."},
 {"property": "C56", "status": "partial", "theorems": ["Jungle.C56_sample", "Jungle.C56_all", "Jungle.C56_some", "Jungle.SampleEx.C56_live_violation", "Jungle.SampleEx.C56_no_index_violation", "Jungle.SampleEx.C56_command_violation"], "note": "Proved for every reachable handle: the call returns, with at most n different keys of accepted records, existing ones if asked for; all existing keys if n is at least the largest number; at least one key without liveKeysOnly. False: with liveKeysOnly no key may be returned although some exist; without the sequence index nothing is returned, with success; keys of command records are returned. Not modelled: snapshots and calls of other threads during the call."},
 {"property": "C57", "status": "partial", "theorems": ["Jungle.FastScan.C57_l0_partial", "Jungle.FastScan.C57_level_partial", "Jungle.FastScan.C57_short_keys_partial", "Jungle.FastScan.C57_clash", "Jungle.FastScan.FastEx.C57_lost_violation", "Jungle.FastScan.FastEx.C57_stale_violation"], "note": "Proved for every execution, every function the index may use to shorten keys (at least one byte of the key, then padding) and every compaction from level 0 or from a level in the middle, under the condition that no record passes the start of one destination table with the bytes in the index and the start of another one only with its remaining bytes; for keys that the index holds whole without that condition. False in general: the code reads the whole key only if the bytes are a prefix of the min key of the next table, and then skips over further tables with the bytes of the index (src/table_compaction.cc:249-258). C57_clash shows that every such clash makes the record unreachable; concrete executions lose a synced value and bring an old one back. Not covered: cancelled compactions by traversal, in-place compaction by traversal."},
 {"property": "C58", "status": "partial", "theorems": ["Jungle.C58_other_partitions_partial", "Jungle.C58_nothing_invented_partial", "Jungle.C58_compact_partial", "Jungle.C58_compact_missing", "Jungle.C58_flush_silent_violation", "Jungle.FailEx.C58_flush_lost_violation", "Jungle.FailEx.C58_flush_stale_violation", "Jungle.FailEx.C58_flush_undeleted_violation", "Jungle.FailEx.C58_compact_lost_violation", "Jungle.FailEx.C58_compact_stale_violation", "Jungle.C58_compact_cause"], "note": "False of the code: flushLogs returns the same and treats the log the same whatever fails (proved for all states and failures); records are lost, old values and deleted keys come back, in flushes and in compactions. Proved: keys of partitions without a failure and keys a compaction wrote read as before; no read returns a value that was not written for the key."},
 {"property": "C59", "status": "proved", "theorems": ["Jungle.Writer.C59_max_writers", "Jungle.Writer.C59_exclusive", "Jungle.Writer.C59_limit", "Jungle.Writer.C59_exactly_once", "Jungle.Writer.C59_returns", "Jungle.Writer.C59_all_return", "Jungle.Writer.C59_flush_sequential", "Jungle.Writer.C59_flush_torn"], "note": "All schedules of calls and writer threads over shared writers, each payload slot and lease modelled. A write of a job is one step; event awaiters are replaced by the polling the code also does."},
 {"property": "C60", "status": "partial", "theorems": ["Jungle.C60_at_most_once", "Jungle.C60_not_before_delay", "Jungle.C60_cancelled_never_wakes", "Jungle.C60_fires_partial", "Jungle.C60_defined_partial", "Jungle.C60_sleep_bounded", "Jungle.C60_in_time_partial", "Jungle.C60_close_violation", "Jungle.C60_use_after_close_violation", "Jungle.C60_late_violation", "Jungle.C60_relies_on_past_violation"], "note": "Proved for all schedules: a timer wakes the workers at most once, later than the delay, and never if cancelled; the thread never sleeps a second. While no DB is closed with a timer left: no undefined behaviour, and every timer fires if the timer thread runs; a timer is not late unless the last pass ran another one. False of the code, with witnesses: closing a DB with a pending delayed flush steps past the end of a list; closing while the handler runs frees what it uses; after one timer has run the others wait up to a second; a request made between the wake-up and the end of its timer gets no wake-up."},
 {"property": "C61", "status": "partial", "theorems": ["Jungle.C61_work_conserving", "Jungle.C61_flusher_fair", "Jungle.C61_compactor_fair", "Jungle.C61_partition_fair_partial", "Jungle.C61_partition_starves_violation"], "note": "Partitions: fair with one DB; with two DBs a partition can starve forever, since the last partition compacted is one number for all DBs. Not modelled: the level-extension branch of the compactor, DBs opened or closed between rounds, several workers."},
 {"property": "C62", "status": "partial", "theorems": ["Jungle.C62_pause_bounded", "Jungle.C62_no_pause", "Jungle.C62_pause_partial", "Jungle.C62_equal_bounds_violation", "Jungle.C62_swapped_bounds_violation", "Jungle.C62_compaction_share", "Jungle.C62_back_off", "Jungle.C62_back_soft", "Jungle.C62_back_hard_partial", "Jungle.C62_back_bound", "Jungle.C62_back_reached", "Jungle.C62_back_fades", "Jungle.C62_back_ends", "Jungle.C62_back_hard_violation", "Jungle.C62_back_interval_violation", "Jungle.C62_back_log_only_violation", "Jungle.C62_back_soft_violation"], "note": "The linear rule holds for startNumLogs < limitNumLogs and products below 2^32; equal bounds divide by zero, swapped bounds switch the throttling off. Back pressure of one database: off below both limits, the rate of the flushes over the soft one, pauses exact, fading and over after a bounded time. False of the code: the hard limit has an effect of its own only from 128 log files on, whatever it is set to, and none in log-section mode; two flushes within a millisecond switch the pauses off; a hard limit below the soft one slows writers down below the soft limit. Floating point numbers are exact fractions and sleeps are not rounded to whole microseconds."},
 {"property": "C63", "status": "partial", "theorems": ["Jungle.C63_repair_restores", "Jungle.C63_history_partial", "Jungle.C63_reads_before_repair_partial", "Jungle.C63_deleted_comes_back_violation", "Jungle.C63_newer_record_stays", "Jungle.C63_first_table"], "note": "Proved when the repair ends before any other compaction, split or merge does; flushes, begun level-0 compactions, starts and repairs cut off by crashes may come first, in any number. The repair keeps the newer of two records for any content of the two tables, and only clears the mark of a first table. Before the repair a key of the table whose merge was cut off may read as OK with an empty value (C24_crash_in_merge_violation). False if other compactions come first: a deletion compacted into the last level before the repair brings the old value back."},
 {"property": "C64", "status": "partial", "theorems": ["Jungle.C64_never_freed_in_use_partial", "Jungle.C64_nothing_begins_while_closing", "Jungle.C64_close_can_go_on", "Jungle.C64_close_returns", "Jungle.C64_requests_answered_once", "Jungle.C64_not_found_means_closed", "Jungle.C64_request_flushes_its_database_partial", "Jungle.C64_long_task_violation", "Jungle.C64_close_in_callback_violation", "Jungle.C64_reclaimer_violation", "Jungle.C64_stale_request_violation"], "note": "Proved for every execution: nothing begins on any database while a close waits, the close ends within 101 of its own steps, every request is answered at most once and none is lost, and DB_HANDLE_NOT_FOUND is only answered for closed databases. Never freed in use: under two conditions (no task longer than the ten seconds of the wait, no log-file reclaimer or command handler with the database on its list); a request flushes its own database if the allocator does not reuse addresses. Each condition is necessary: four violations, each a concrete execution."},
 {"property": "C65", "status": "partial", "theorems": ["Jungle.C65_last_record_or_dropped", "Jungle.C65_no_older_version", "Jungle.C65_keep_all", "Jungle.C65_get", "Jungle.C65_calls", "Jungle.C65_asked", "Jungle.C65_dropped_is_gone_partial", "Jungle.CbEx.C65_dropped_stays_violation"], "note": "Answers change only to not-found and only for dropped last records; calls are exactly the records of a last-level table with its min and max key. 'Does not exist after the compaction' is proved when the tables hold one record for the key, and false when a cancelled compaction has left a second copy in a level above. Level-0-only mode (mergeCompactTo, which passes empty min and max keys) is not modelled."},
 {"property": "C66", "status": "partial", "theorems": ["Jungle.C66_byte_like", "Jungle.C66_one_table_partial", "Jungle.C66_scan_open", "Jungle.C66_scan_partial", "Jungle.C66_scan_byte_like", "Jungle.C66_lost_violation", "Jungle.C66_scan_violation"], "note": "Proved: a comparator that orders keys like their bytes changes nothing (lookups after any division into tables, range scans); any comparator is right as long as no level is divided into several tables, and for scans of unflushed records without an end key. False otherwise: with a descending comparator the first level-0 compaction that makes two tables loses records for lookups (C66_lost_violation), and a range scan over unflushed records gives nothing (C66_scan_violation). The comparator is modelled as an arbitrary order on keys given by a map to a linear order. Missing: level compactions, splits and merges under a comparator, scans of table files, which use the comparator throughout inside one file."},
 {"property": "C67", "status": "partial", "theorems": ["Jungle.C67_safe", "Jungle.C67_no_leak", "Jungle.C67_free", "Jungle.C67_copy", "Jungle.C67_move", "Jungle.C67_independent", "Jungle.C67_record_copy", "Jungle.C67_clone", "Jungle.C67_record_move", "Jungle.C67_record_free", "Jungle.C67_resize_zero_violation", "Jungle.C67_self_move_violation", "Jungle.C67_assign_violation", "Jungle.C67_overwrite_violation", "Jungle.C67_huge_violation"], "note": "Proved for all programs that keep the listed rules. Two of the rules are not in the documentation and their breach is a fault of the code: resize(0) frees the memory and keeps owning it (double free), moving a buffer to itself loses it. Sizes of 4 GiB and more are cut to 32 bits. The rules on assignment and overwriting are documented; the witnesses show they are needed, also that clone loses the meta of a record without key and value. realloc of size 0 is that of glibc. Not modelled: which buffers the database itself allocates for its callers."},
 {"property": "C68", "status": "partial", "theorems": ["Jungle.C68_off", "Jungle.C68_reason_partial", "Jungle.C68_merge_has_target", "Jungle.C68_merge_small", "Jungle.C68_merge_found", "Jungle.C68_over_limit", "Jungle.C68_priority", "Jungle.C68_urgent", "Jungle.C68_level0", "Jungle.C68_merge_locked_violation", "Jungle.C68_endless_violation", "Jungle.C68_idle_violation", "Jungle.C68_leftover_violation", "Jungle.C68_min_wss_violation"], "note": "Proved for all configurations and tables, except that the table taken for a merge may be locked (the merge then fails, and no other table is tried). False of the code: with a compaction factor (or debugging ratio) of 100 or less, 0 included, a table without stale data is rewritten for ever; idle-traffic compaction never takes a partition with a second table, because 0 - 100 is computed in unsigned numbers; a leftover table waits for the end of a sequential load; minWssToMerge has no effect in levels that are more than 40% full. Exact comparisons in place of floating point, no products above 2^64 other than that one."},
 {"property": "C69", "status": "partial", "theorems": ["Jungle.C69_clone_partial", "Jungle.C69_at_once", "Jungle.C69_mode", "Jungle.C69_readonly", "Jungle.C69_closing", "Jungle.C69_later_violation", "Jungle.C69_unsynced_violation", "Jungle.C69_rollback_violation", "Jungle.C69_copy_violation"], "note": "Proved for every history: the clone shows all records synced when it was made and, after them, only records that were written next, in order; exactly the synced ones as long as nothing is written. False of the code: records that are written later to the newest log file of the clone show up in it, so it is not a snapshot; a record that is not synced when the clone is made is missing although the snapshot handle returned with it covers it; a rollback afterwards takes records from the clone; a failed copy is reported as OK. Log files removed by flushes after the clone are not modelled (the snapshot handle keeps them), nor reading while a sync writes."},
 {"property": "C70", "status": "partial", "theorems": ["Jungle.C70_counts_all", "Jungle.C70_count", "Jungle.C70_hierarchy", "Jungle.C70_bounds", "Jungle.C70_closing", "Jungle.C70_gap_violation", "Jungle.C70_tombstone_violation", "Jungle.C70_no_table_violation"], "note": "Proved for every reachable state of a database with tables. The upper bound is exact if no writer chose its own numbers; it is false otherwise: one record with number 10^6 counts as 10^6 pairs. Tombstones in tables are counted as pairs. In log-section mode the lowest table number is 2^64-1 and the highest 0. Sizes, the block cache, memtables and task counts are not modelled."},
 {"property": "C71", "status": "partial", "theorems": ["Jungle.C71_names", "Jungle.C71_defined", "Jungle.C71_leftovers_partial", "Jungle.C71_others", "Jungle.C71_read_only", "Jungle.C71_sessions_partial", "Jungle.C71_number_violation", "Jungle.C71_foreign_violation", "Jungle.C71_queue_keeps_partial", "Jungle.C71_queue_empties", "Jungle.C71_queue_violation"], "note": "Proved for all names and numbers below 2^31. False in full: the number is read with atoi, which is undefined from 2^31; any file with the words log0000_ or table0000_ anywhere in its name is deleted; and the queue of pending deletions works by name, so that it deletes the files of a database created where another one was deleted. Failures of the file system are not modelled."},
 {"property": "C72", "status": "partial", "theorems": ["Jungle.C72_off", "Jungle.C72_hours_partial", "Jungle.C72_idle_iff", "Jungle.C72_quiet_is_idle", "Jungle.C72_idle_is_quiet_partial", "Jungle.IdleEx.C72_hour_violation", "Jungle.IdleEx.C72_young_violation", "Jungle.IdleEx.C72_window_violation", "Jungle.IdleEx.C72_clock_violation"], "note": "The decision is characterised for every steady history, the ring of 360 counters included. False in full: a range over midnight includes one hour too many; a process that is younger than the window counts as idle after 20 seconds; windows longer than an hour are cut to an hour; and if the clock leaves out slots, operations of an hour ago count as current. Concurrent calls and spurious failures of the compare-and-swap are not modelled."},
 {"property": "C73", "status": "partial", "theorems": ["Jungle.C73_append_iff", "Jungle.C73_append", "Jungle.C73_sync_bytes_partial", "Jungle.C73_failed_sync_bytes_partial", "Jungle.C73_sync_load_partial", "Jungle.C73_failed_sync_load_partial", "Jungle.C73_no_overflow_partial", "Jungle.C73_no_overflow_plain", "Jungle.C73_marker_partial", "Jungle.C73_retry_partial", "Jungle.C73_marker_violation", "Jungle.C73_long_value_violation", "Jungle.C73_tiny_buffer_violation", "Jungle.FlushEx.C73_marker_load_violation", "Jungle.FlushEx.C73_retry_violation", "Jungle.FlushEx.C73_expansion_violation"], "note": "Proved for every buffer size, all records and every behaviour of the system calls, as long as no marker of an already synced checkpoint is pending, or the records fit into the buffer. False in full: such a marker is written before the rest of the buffer and can come between the header and the data of a record, which makes the file unreadable from there; a sync that failed in the middle of a record leaves a part of it, and the next sync appends behind it and returns OK, but the load stops there; a value of 2 GiB or more can not be written; a compression that makes a value much longer, or a configured buffer of less than 18 bytes, overruns the buffer. (18 bytes are enough without compression, 20 with). The file layer is the one for append (no direct I/O), one sync at a time."},
 {"property": "C74", "status": "partial", "theorems": ["Jungle.C74_bound", "Jungle.C74_none", "Jungle.C74_some_partial", "Jungle.C74_exact_partial", "Jungle.C74_gap_violation"], "note": "The bounds and the refusal are proved for every reachable state. That a number is given only when a record waits is proved for one log file; that the record exists, for numbers without gaps. False for numbers the writer chose: the number after the last flushed one is returned although no record has it. Concurrent removal of log files is not modelled."},
 {"property": "C75", "status": "partial", "theorems": ["Jungle.LogMode.C75_no_manifest", "Jungle.LogMode.C75_log_mode", "Jungle.LogMode.C75_tables_partial", "Jungle.LogMode.C75_reopens_partial", "Jungle.LogMode.C75_dies_violation", "Jungle.LogMode.C75_unopenable_violation", "Jungle.LogMode.C75_empty_violation", "Jungle.LogMode.C75_converted_violation"], "note": "Proved for every history of openings, flushes and compactions. False when the first opening with tables dies behind the first store of the table manifest: the directory is taken for one in log section mode, and with level 0 only it can never be opened with the same options again; dying before the first byte leaves an empty manifest that no opening accepts. A directory with tables that is opened in log section mode later is not recognised. Flushes and compactions are modelled by what they may do to the manifest; torn stores of later manifests are left out here."},
 {"property": "C76", "status": "partial", "theorems": ["Jungle.Urgent.C76_bounded_partial", "Jungle.Urgent.C76_zero", "Jungle.Urgent.C76_ends", "Jungle.Urgent.C76_stays", "Jungle.Urgent.C76_expires_partial", "Jungle.Urgent.C76_expiry_violation", "Jungle.Urgent.C76_endless_violation", "Jungle.Urgent.C76_wrap_violation"], "note": "The bound is proved for numbers that were already given to a table, the expiry while there is no table with the number 0 and for times below 2^64 microseconds. False in full: while table 0 is there the request never expires; a request up to a number that no table has yet compacts the tables its own compactions create, again and again; an expiry that does not fit in 2^64 microseconds wraps. Which table is taken is decided in C68; that the compactor comes to the database at all, in C61."},
 {"property": "C77", "status": "partial", "theorems": ["Jungle.FirstOpen.C77_writable_partial", "Jungle.FirstOpen.C77_unwritable_violation", "Jungle.FirstOpen.C77_unopenable_violation"], "note": "Proved if it dies before the manifest of the log section is created or behind the second store of it. False at every point in between: behind the first store, and at every byte of the second one, the directory opens, but every write is refused with NOT_INITIALIZED in all sessions from then on, while sync returns OK; at every byte of the first store no opening succeeds afterwards. Not covered: writes that reach the disk out of order, damaged newest log files, flushes beyond the last sync (with no largest number they read an uninitialised variable). The table manifest is in C75."},
 {"property": "C78", "status": "partial", "theorems": ["Jungle.Limits.C78_base", "Jungle.Limits.C78_ratio", "Jungle.Limits.C78_monotone", "Jungle.Limits.C78_enough", "Jungle.Limits.C78_vanishes_violation", "Jungle.Limits.C78_overflow_violation", "Jungle.Limits.C78_writers", "Jungle.Limits.C78_share"], "note": "Proved with ratios as exact fractions, for ratios from 1 on (limits do not shrink) and from 2 on (enough levels). False in full: the configuration is not checked, and with a last ratio below 1 the limits become 0, so that every level with data is over its limit; with the defaults the limit of level 9 does not fit 64 bits. Not modelled: the rounding of double above 53 bits."},
 {"property": "C79", "status": "partial", "theorems": ["Jungle.Reclaim.C79_only", "Jungle.Reclaim.C79_kept", "Jungle.Reclaim.C79_oldest_partial", "Jungle.Reclaim.C79_bound_partial", "Jungle.Reclaim.C79_reads", "Jungle.Reclaim.C79_ttl_violation", "Jungle.Reclaim.C79_crash_violation", "Jungle.Reclaim.C79_clock_violation", "Jungle.Reclaim.C79_exceeds_violation"], "note": "What may be purged is proved for all times and options; that no more than the excess is purged, for files that have not expired; that the least recently accessed are taken, if the clock stands still during the pass; that, with no two access times the same as well, no more than the number stay besides the first file and unsynced ones; that nothing is purged while no database has an expiry time, and that databases with one reload what they read. False in full: if any database of the process has an expiry time, the reclaimer also purges the memtables of databases with logFileTtl_sec 0, all it may purge and in each pass, and these are never reloaded, so that reads go through a null pointer; ages of the second loop are compared with one of the first, so a memtable accessed later can be purged instead of an older one; the first file and unsynced ones are counted and never purged, so more than the number can stay; without an expiry time the number has no effect. All ages of one loop are taken at one time in the model, and no other thread uses the files during the pass (that is Conc/Evict)."}
]}
