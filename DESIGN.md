# Formal model of eBay/Jungle in Lean 4 — design

`properties.jsonl` lists the properties (C01 …), `MANIFEST.json` maps each to the theorems that
prove it or refute it, `seeded/LOG.jsonl` records the runs against wrong programs.  All Lean
sources are under `lean/Verif/`.

## Method

* **Model.**  The code is written again as small total functions on plain data: a database handle is
  a record of lists and finite maps, a call is a function from state to status and state, a thread
  interleaving is a step relation.  Every definition cites the lines of `/repo` it models and says
  what it leaves out.  Where the C++ code has undefined behaviour (null dereference, `end()`
  dereference, division by zero) the model returns `undefinedBehaviour` or `none`.  Calls of the
  environment (hash, comparator, compaction victim, size limits, crash point, schedule) are
  parameters or nondeterministic steps, so theorems quantify over them.
* **Executions.**  Histories are inductive relations (`Reach`, `TReach`, `PReach`, `Session`, `TSession`, `DReach`, …): the
  initial state and one constructor for each operation with arbitrary arguments.  Properties are
  proved for all reachable states by an invariant that each constructor keeps.
* **Specification.**  `Spec/KV`, `Spec/Iter`, `Spec/Nearest` and `Spec/Search` define, on the list of
  accepted writes only, what a reader must see (`lastWrite`, `answer`, `upTo`, `Closer`, …).
  Property theorems in `Props/` are stated with these and with the API functions of the model.
* **Non-vacuity.**  Beside each property theorem an `example` runs a concrete script to a
  non-trivial state and applies the theorem to it.
* **Violations.**  Where the code does not have the property, a theorem `Cxx_…_violation` exhibits a
  reachable state and the wrong answer (evaluated by the kernel with `decide`), and a `_partial`
  theorem states what does hold.  A partial theorem names what is missing in its comment.
* **Wrong programs.**  The definitions are edited in a scratch copy the way a bug would change them
  and the library is rebuilt; theorems that survive an edit that falsifies their claim are
  tightened.

## Module map

| directory | contents |
|---|---|
| `Basic`, `SMap` | records, status codes; finite maps as sorted lists |
| `Spec/` | specifications, independent of the model |
| `Codec/` | byte-level code: serializer, CRC-32 with the literal tables, log records and log-file loader, log/table/DB manifest files with framing and backup, table metadata, Bloom filter bitmap, key comparison |
| `Log/` | memtable, log file, log manager (write, batch, rotation, sync, flush, checkpoint, lookup by key and number, discardDirty, rollback), disk image of the log and recovery |
| `Table/` | table manager: level-0 hash partitions, range-partitioned levels, flush, all compactions, split, merge, reopen, repartition, checkpoint marks and snapshots, Bloom filters and lookup boosters in reads, mode without level extension |
| `DB/` | handle: all read and write calls, snapshots, global batches, nearest and prefix search, readers interleaved with batches, crash and recovery of the whole database, sessions across restarts |
| `Iter/` | memtable, table-file, log, table and DB iterators (by key and by number) with the window merge |
| `Index/` | skip list with explicit pointers; insertion interleaved with searches |
| `Conc/` | reference counts, operation semaphore, table locks, event awaiter, flusher queue, memtable eviction, write mutexes, table numbers, closing against background tasks |
| `IO/` | direct-I/O layer |
| `Sampler/` | sample keys |
| `FastScan/` | compaction by index traversal |
| `Fail/` | flushes and compactions whose table writes fail |
| `Writer/` | the table-writer threads that concurrent flushes and compactions share |
| `Timer/` | the timers of delayed flush requests |
| `Worker/` | which DB and partition a background worker takes next, throttling |
| `Props/` | the property theorems and their witnesses |


## Results per property

Status is that of `MANIFEST.json`.  *Not proved / false* is quoted from there.  Theorem files: `lean/Verif/Props/`.

### C01 get returns the latest write — proved

*Claim.* After any sequential history of accepted and refused set / setSN (with a number above the newest one) / del / setRecordBatch / sync / checkpoint / flushLogs (of everything, or up to a synced record's number) / log rotation / table maintenance, get(k) on the live handle returns the value of the most recent operation on k if it was a set, and KEY_NOT_FOUND if it was a deletion or k was never written. With Bloom filters in the tables (off by default) the same holds for every key whose newest operation is not a flushed deletion, and no read returns a value that was never written to the key (flushed deletions under Bloom filters are the subject of C02). (Flushes up to other numbers are the subject of C06, older caller-supplied numbers of C04.)

*Modelled.* `Log/MemTable`, `Log/LogMgr`, `DB/Model`, `Table/*`.  *Proof.* refinement: invariant `DBInv` of all reachable handles relates log files and tables to the history; `get` = last write of the history.

*Scope, what is missing or false.* Histories of a live handle, in the first session or after any number of closes, restarts and crashes of the kind Left describes (Reach.session); tables behind the TableSys interface (C01_get_returns_latest_write) and the concrete tables (C01_lsm). C01_bloom and C01_bloom_no_invention: the same reads with Bloom filters in the tables, for any filter without false negatives (C28).

*Theorems.* `C01_get_returns_latest_write`, `C01_getRecordByKey`, `C01_write_accepted`, `C01_set_then_get`, `C01_setSN_then_get`, `C01_setRecordByKey_then_get`, `C01_lsm`, `C01_bloom`, `C01_bloom_no_invention`.

### C02 a deleted key stays deleted — partial

*Claim.* If the most recent operation on a key is a deletion, no point read of the live DB returns a value for that key, wherever older versions of the key are stored (log, level 0, deeper levels), under every configuration including table Bloom filters.

*Modelled.* as C01, `Table/BloomGet`.  *Proof.* corollary of C01; with filters: coverage invariant `TMgr.Covered` and a witness.

*Scope, what is missing or false.* Without Bloom filters (the default configuration) for every history. With Bloom filters the property is false of the code: a deletion flushed to level 0 is not added to the filter of its table, so the older value in a deeper level is returned (C02_bloom_violation). C02_bloom_partial: with filters it holds for every key whose last write is not a flushed deletion.

*Theorems.* `C02_deleted_stays_deleted`, `C02_del_then_get`, `C02_delSN_then_get`, `C02_delRecord_then_get`, `C02_lsm`, `C02_bloom_partial`.
*Counterexamples.* `C02_bloom_violation`.

### C03 snapshot isolation — partial

*Claim.* get on a snapshot opened at sequence number c returns the newest version of the key with sequence number at most c, and keeps returning exactly that while any further writes, syncs, flushes and log-file removals happen on the parent DB.

*Modelled.* `DB/Snap*`, `Table/Marks`, `Table/SnapLemmas`.  *Proof.* invariant: the records at or below the checkpoint reachable from the snapshot do not change.

*Scope, what is missing or false.* For every reachable state (writes, batches, syncs, flushes, checkpoints, table maintenance): a snapshot above the last flushed number shows exactly the newest versions up to its number and keeps doing so under any writes, syncs, flushes and log-file removals. The latest state and flushed checkpoints: the right answer or SNAPSHOT_NOT_FOUND. The full statement is false: four violations (log file of a listed checkpoint removed: null dereference; empty table in a partition: SNAPSHOT_NOT_FOUND; checkpoint opened during a level-0 compaction shows a later write; compaction after opening loses keys).

*Theorems.* `C03_snapshot_partial`, `C03_latest_partial`, `C03_flushed_partial`.
*Counterexamples.* `C03_removed_log_violation`, `C03_empty_partition_violation`, `C03_l0_compaction_violation`, `C03_compaction_violation`.

### C04 sequence numbers are unique and increasing — partial

*Claim.* When the caller supplies no sequence numbers, every accepted write gets a sequence number strictly greater than that of every earlier accepted write, across log-file rotation, and getMaxSeqNum returns the last one. A caller-supplied number that is not greater than the newest one is rejected unless overwriting is enabled.

*Modelled.* `Log/MemTable` (assignSeqNum), `Log/LogMgr`.  *Proof.* invariant `LogInv.inc/top` over histories; witness on a fresh log file.

*Scope, what is missing or false.* uniqueness and growth are proved; refusal of an old caller-supplied number is proved except when the write opens a new log file, where the code accepts it (witness proved). Histories include restarts (Reach.session).

*Theorems.* `C04_numbers_increase`, `C04_automatic_number`, `C04_old_number_refused_partial`, `C04_torn_numbers`.
*Counterexamples.* `C04_rotation_violation`, `C04_restart_reuse_violation`.

### C05 getSN returns the record with that number — proved

*Claim.* For every sequence number not yet moved to tables, getSN(n) returns exactly the record that was written with number n; for a number never written it reports an error, never another record.

*Modelled.* `Log/LogMgr` (getSN, file lookup by number).  *Proof.* invariant: files own disjoint ranges of numbers.

*Theorems.* `C05_getRecord_complete`, `C05_getRecord_sound`, `C05_getRecord_unused`, `C05_getSN`.

### C06 flushing is invisible to readers — partial

*Claim.* Moving any prefix of the log to tables (flushLogs with any upper bound) changes no answer of get(k), for every key.

*Modelled.* `Log/LogMgr` flush, `Table/Model` setBatch.  *Proof.* log part and table part of the history stay complementary; witnesses for the other bounds.

*Scope, what is missing or false.* proved for the bounds DB.FlushSeq describes (everything, a synced or beyondLastSync record number, anything above the maximum); for other bounds the code loses data (witnesses proved). Histories include restarts (Reach.session).

*Theorems.* `C06_flush_invisible_partial`, `C06_flush_defined_partial`.
*Counterexamples.* `C06_gap_violation`, `C06_unsynced_violation`, `C06_flush_after_unsynced_violation`.

### C07 crash during flush is harmless — partial

*Claim.* If the process dies at any point during a flush (after any prefix of the table writes, before or after the log manifest records the flushed position), reopening and reading gives the same answers as if the flush had not started, and re-running the flush gives the same result as a single one.

*Modelled.* `DB/Crash`, `Log/Crash`, `DB/TornSession`.  *Proof.* flush as a list of disk steps; reads after recovery from every prefix; sessions with crashes inside flushes are simulated by sessions without.

*Scope, what is missing or false.* Reads after a crash inside a flush of synced records equal reads after a crash before it; the next session may run the flush again, crash inside it again, and so on, without any read changing (C07_rerun_partial, by simulation). Missing: going on after a crash in which the flush had removed log files already; false for flushes of unsynced records (violation theorem).

*Theorems.* `C07_crash_in_flush_partial`, `C07_rerun_partial`.
*Counterexamples.* `C08_beyond_flush_violation`.

### C08 synced records survive a crash — partial

*Claim.* After sync returns OK, every record written before it is present after a crash and reopen, with identical key, metadata, value, type and sequence number.

*Modelled.* `Log/Crash`, `Codec/LogCodec`, `Log/StoreInv`.  *Proof.* store invariant: bytes on disk decode to a prefix that contains all synced records.

*Scope, what is missing or false.* Proved for every history and every crash point, in the first session and after restarts that left no torn record, no log file added since the last sync, and came after a first sync (C08_sessions_partial: the next session goes on with the surviving prefix; C08_torn_sessions_partial: also after crashes inside flushes, again and again). The violation theorems show the claim is false of the code in later sessions after the other crashes.

*Theorems.* `C08_synced_survive_partial`, `C08_synced_value_partial`, `C08_sessions_partial`, `C08_torn_sessions_partial`, `C08_torn_reads_partial`.
*Counterexamples.* `C08_second_session_violation`, `C08_batch_after_torn_tail_violation`, `C08_batch_after_empty_reopen_violation`, `C08_checksum_violation`, `C08_beyond_flush_violation`.

### C09 crash recovery yields a prefix — proved

*Claim.* Whatever prefix of the log file's bytes survives a crash, loading recovers exactly a prefix of the written records, in order, and never a partial, reordered or invented record.

*Modelled.* `Codec/LogCodec` load loop.  *Proof.* induction over records and over the cut.

*Theorems.* `C09_recovers_prefix`.

### C10 log record round trip — proved

*Claim.* Key, metadata, value, type (insertion, deletion, command), sequence number and compression information of every record are restored bit for bit when the log file is read back.

*Modelled.* `Codec/LogCodec` encoder and loader.  *Proof.* decode (encode x) = x on the loader itself.

*Theorems.* `C10_log_round_trip`, `C10_item_faithful`.

### C11 byte corruption of a log record is detected — partial

*Claim.* If a byte of a stored log record's header or payload is altered on disk, opening the file does not return a record with altered content: the record is reported as a checksum error.

*Modelled.* `Codec/LogCodec`, `Codec/Crc`.  *Proof.* CRC-32 is injective in one changed byte.

*Scope, what is missing or false.* The flag bytes of a record are covered by no checksum: C11_flags_violation gives a one-byte change that turns an insertion into a deletion undetected.

*Theorems.* `C11_corruption_detected_partial`.
*Counterexamples.* `C11_flags_violation`.

### C12 batch atomic visibility — partial

*Claim.* While setRecordBatch is running, a concurrent get sees either none or all of the batch's records, including on an empty DB.

*Modelled.* `DB/Model.duringBatch`, `DB/ReaderRace`.  *Proof.* barrier invariant; reader as two loads at two moments.

*Scope, what is missing or false.* proved for a non-empty DB; on an empty DB the code breaks it (witness proved) A reader that loads the newest number and the barrier at two different moments of the batch is covered too (C12_two_moments_partial); if the barrier is loaded only after the batch, the code shows half of it: C12_reader_race_violation (get), C12_iterator_race_violation (iterators).

*Theorems.* `C12_batch_invisible_while_running_partial`, `C12_batch_visible_after`, `C12_two_moments_partial`.
*Counterexamples.* `C12_empty_db_violation`, `C12_flush_ignores_barrier_violation`, `C12_reader_race_violation`, `C12_iterator_race_violation`.

### C13 invalid batches have no effect — proved

*Claim.* A batch containing an unusable sequence number is rejected as a whole: no record of it becomes visible and no sequence number is consumed. An empty batch is rejected.

*Modelled.* `Log/LogMgr` setMulti.  *Proof.* validation precedes every write.

*Theorems.* `C13_invalid_batch_no_effect`.

### C14 global batch atomicity across DBs — partial

*Claim.* While a global batch runs over several DBs, a reader that looks at the DBs sees either all of the batch or nothing of it, and a batch in which any part is invalid changes no DB.

*Modelled.* `DB/GlobalBatch`.  *Proof.* step machine over n databases; barrier invariant for each.

*Scope, what is missing or false.* All-or-nothing at every moment of the run and the refusal of invalid batches are proved for any number of DBs. Missing because false of the code: DBs without records (barrier 0 means no barrier), empty parts (undefined behaviour), readers interrupted between their two loads. addBatch drops batches for read-only DBs and second batches for the same DB without telling the caller. Not modelled: other writers after the clean-up of a DB, failing puts.

*Theorems.* `C14_global_batch_atomic_partial`, `C14_global_batch_values_partial`, `C14_invalid_changes_nothing`.
*Counterexamples.* `C14_empty_db_violation`, `C14_empty_part_violation`, `C14_reader_race_violation`, `C14_dropped_part_violation`.

### C15 checkpoints are listed and honoured — partial

*Claim.* getCheckpoints returns, in ascending order and without duplicates, the most recent checkpoints up to the configured maximum; a checkpoint listed from the log keeps being openable and shows the state at the time it was taken.

*Modelled.* `DB/Snap`, `Table/Marks`.  *Proof.* list algebra; invariant of the kept marks.

*Scope, what is missing or false.* Listed checkpoints ascend strictly, are at most maxKeepingCheckpoints many and are numbers of accepted writes; a checkpoint taken while something is unflushed stays listed, in the log and then in the tables, unless as many newer ones as are kept are listed (any later writes, syncs, flushes, checkpoints); unflushed it opens a snapshot that shows the state when it was taken. False of the code: a checkpoint taken when everything is flushed is accepted but never listed; a level-0 compaction drops listed checkpoints.

*Theorems.* `C15_listing`, `C15_most_recent`, `C15_shows`, `C15_kept_partial`.
*Counterexamples.* `C15_flushed_state_violation`, `C15_compaction_violation`.

### C16 rollback keeps exactly the older records — partial

*Claim.* rollback(n) in log-section mode leaves exactly the records with sequence number at most n, and the next write gets n+1.

*Modelled.* `Log/Rollback`, `DB/Rollback`.  *Proof.* invariant of executions with rollbacks; records kept = filter.

*Scope, what is missing or false.* With logFileTtl_sec not 0: after any sequence of writes, batches, syncs, checkpoints, rollbacks, evictions of memtables and restarts, a successful rollback(n) leaves exactly the records numbered at most n (reads by key and by number), a rollback to the number of a record succeeds and the next write gets n+1, a failed one on a non-empty database changes nothing observable. Missing, with counterexamples proved: n in a gap (next number is not n+1), a database without records (a failed rollback moves the next number), logFileTtl_sec = 0 (null memtable on the next read). Purging by flushLogs in log-section mode is not part of the executions.

*Theorems.* `C16_reads`, `C16_rollback_keeps`, `C16_rollback_partial`, `C16_refused`, `C16_mode`, `C16_unavailable`.
*Counterexamples.* `C16_gap_violation`, `C16_empty_violation`, `C16_no_ttl_violation`.

### C17 key iteration is complete, ordered and duplicate free — proved

*Claim.* Iterating forward from the beginning returns every live key exactly once, in ascending order, with its newest visible value, and no deleted key; iterating backward from the end returns the same list reversed.

*Modelled.* `Iter/*`.  *Proof.* window merge refines the merged list, laws of leaves and merges (`LeafLaws`, `MergeLaws`).

*Scope, what is missing or false.* Forward loop, gotoEnd and backward loop, gotoBegin and forward loop on a reachable handle with the concrete tables, any key range. The iterator is used while no other call changes the handle.

*Theorems.* `C17_live_list_exists`, `C17_iteration`.

### C18 changing direction works — partial

*Claim.* At any position of a key iterator, next followed by prev (when both succeed) returns to the same record, and the other way round.

*Modelled.* `Iter/*`.  *Proof.* same laws; witness for a one-record source.

*Scope, what is missing or false.* False of the code in general (C18_violation: a source with a single record is skipped after forward-backward-forward). Proved: one change of direction always, any moves when every log file and table shows no key or at least two. Missing: nothing else is true. For all calls and bounds, also after failed ones, only accepted insertions are returned.

*Theorems.* `C18_one_turn_partial`, `C18_all_moves_partial`, `C18_moves_return`, `C18_only_written`.
*Counterexamples.* `C18_violation`.

### C19 iterator seek lands on the nearest key — partial

*Claim.* seek(k, GREATER) positions the iterator on the smallest live key not less than k; seek(k, SMALLER) on the greatest live key not greater than k.

*Modelled.* `Iter/*`.  *Proof.* same laws; witnesses.

*Scope, what is missing or false.* GREATER proved when a live key not below k exists; the code shows an old value otherwise (C19_violation_beyond) and prev after the seek can return an old value (C19_violation_stale_prev). SMALLER is false of the code (C19_violation_smaller) and proved when every source has a key not above k.

*Theorems.* `C19_seek_greater_partial`, `C19_seek_smaller_partial`, `C18_only_written`.
*Counterexamples.* `C19_violation_smaller`, `C19_violation_stale_prev`, `C19_violation_beyond`.

### C20 iteration by sequence number — partial

*Claim.* An iterator created with initSN returns each record once in ascending sequence-number order, and seekSN lands on the nearest one.

*Modelled.* `Iter/SeqItr*`.  *Proof.* same laws by sequence number; witnesses.

*Scope, what is missing or false.* For every reachable handle and bounds that are absent or the number of a written record: the forward and backward loops return one ascending list without repetition, of written records of the range, with every unflushed and every current record; one change of direction; seekSN GREATER inside the range. The property is false in general: seekSN SMALLER goes to the largest number, seekSN beyond the range leaves it, and bounds that are not the number of a record can show a record outside (four witnesses proved). Snapshot handles are not covered. For all calls and bounds only accepted records are returned.

*Theorems.* `C20_iteration_partial`, `C20_one_turn_partial`, `C20_seek_greater_partial`, `C20_only_written`.
*Counterexamples.* `C20_violation_seek_smaller`, `C20_violation_seek_beyond`, `C20_violation_range`, `C20_violation_range_below`.

### C21 nearest-record search is exact — partial

*Claim.* getNearestRecordByKey returns the last write to the closest key in the requested direction. A deleted key that has not been purged counts as a key and is returned with its deletion mark, as the header file documents. KEY_NOT_FOUND is returned only if no live key lies in that direction. EQUAL is refused.

*Modelled.* `DB/Nearest*`.  *Proof.* each layer returns the closest of its own records; witnesses.

*Scope, what is missing or false.* Live handle. Exactness is proved for every reachable database in which no key was purged from the tables while a log file in use still lists it, and no table above level 0 is empty; both restrictions are shown to be needed by reachable counterexamples. That the answer was written and lies on the right side is unconditional. Missing: snapshots; the empty key, which the code treats as "not found".

*Theorems.* `C21_side`, `C21_nearest_partial`.
*Counterexamples.* `C21_purged_violation`, `C21_empty_table_violation`.

### C22 prefix search is complete — partial

*Claim.* getRecordsByPrefix reports every live key with the given prefix, each with its newest value.

*Modelled.* `DB/Search*`.  *Proof.* callback list = concatenation of the layers; witnesses.

*Scope, what is missing or false.* For every reachable DB and every prefix, the callback gets the records of one list until it answers STOP; the newest report of each key is the live record or a deletion, so every live key with the prefix is reported with its newest value. Hypothesis: at most two tables of a level below 0 hold matching minimum keys. False beyond that (third table skipped), and false that a key is reported once or with the newest value first: old versions and deleted keys are reported, shown by witnesses.

*Theorems.* `C22_complete_partial`, `bytePfx_hit`.
*Counterexamples.* `C22_three_tables_violation`, `C22_old_version_violation`, `C22_stale_first_violation`.

### C23 compaction preserves contents — partial

*Claim.* Compacting a table into the next level, compacting in place and merging two level-0 tables change no answer of get(k), for every key; deletions may be dropped only where no older version can reappear.

*Modelled.* `Table/Model`, `Table/Merge`, `Table/Ops`, `Table/Lsm`; `Table/L0Only*`.  *Proof.* range-partition invariant `TMgr.Inv`; `Same` relation per operation; per-partition phases without level extension.

*Scope, what is missing or false.* With level extension (the default): all compactions (level 0 into level 1, level i into i+1 with or without refill, last level moving down, in place), complete or cancelled at any point, and cancelled + reopened. Without level extension (nextLevelExtension = false): single and merge compaction of level-0 tables, started, finished, cancelled, restarted and across reopens, keep every answer while the partition has at most two tables or was not reopened since it was last compacted; in all reachable states a read gives the right answer or OK with an empty value. The property is false there: merge compaction after a reopen (C23_l0only_reopen_violation) and the moment between listing the result and removing the sources (C23_l0only_window_violation). Table files are finite maps; one maintenance operation at a time (C32 covers the locks); the compaction callback and switching modes are not modelled.

*Theorems.* `C23_tables_hold_last_flushed`, `C23_compaction_invisible`, `C23_crash_during_compaction`, `C23_get_unchanged`, `C23_l0only_partial`, `C23_l0only_right_or_blank_partial`, `C23_l0only_compaction_invisible`.
*Counterexamples.* `C23_l0only_reopen_violation`, `C23_l0only_window_violation`.

### C24 split and merge preserve contents and ranges — partial

*Claim.* Splitting a table into several and merging two neighbouring tables change no answer of get(k), and afterwards every stored key is still in the one table whose range contains it.

*Modelled.* `Table/Ops`.  *Proof.* as C23.

*Scope, what is missing or false.* Split and merge change no answer and keep ranges. A crash inside mergeLevel does change answers: C24_crash_in_merge_violation.

*Theorems.* `C24_split_merge_invisible`, `C24_ranges`, `C24_numbers`.
*Counterexamples.* `TableEx.C24_crash_in_merge_violation`.

### C25 table metadata round trip — proved

*Claim.* User metadata, the deletion mark and the compression information stored with a record in a table are restored exactly, and a record with no metadata comes back with none.

*Modelled.* `Codec/Frame`.  *Proof.* round trip.

*Theorems.* `C25_meta_round_trip`.

### C26 log manifest round trip and incremental store — partial

*Claim.* After storing the log manifest in any state following any earlier stores, the file on disk decodes to exactly that state, although only the changed suffix is rewritten; an older or torn file is detected and the backup is used.

*Modelled.* `Codec/LogMani`.  *Proof.* incremental store = full store (invariant of the cached bytes), round trip.

*Scope, what is missing or false.* Exactness of the incremental store and use of the backup are proved for every history and every torn content. Not proved, because it is not a property of a 32-bit checksum: that every torn or older file is rejected; proved for one changed byte. Writes of the manifest itself are assumed to succeed.

*Theorems.* `C26_store_load`, `C26_torn_file_uses_backup`, `C26_torn_backup_harmless`, `C26_altered_byte_detected`, `C27_wrong_kind_rejected`.

### C27 table manifest round trip — proved

*Claim.* Storing and loading the table manifest restores the level count, every table's number, level, hash partition, minimum key and status, and the highest table number.

*Modelled.* `Codec/TabMani`.  *Proof.* round trip.

*Theorems.* `C27_store_load`, `C27_torn_file_uses_backup`, `C27_altered_byte_detected`, `C27_wrong_kind_rejected`.

### C28 Bloom filters never hide a stored key — proved

*Claim.* If a key was added to a Bloom filter, the filter answers possibly-present for it, for every filter size above 0, after any further additions, and after saving and loading the filter.

*Modelled.* `Codec/Bloom`.  *Proof.* bits only go up.

*Scope, what is missing or false.* Filters of size 0 divide by zero and are shown separately.

*Theorems.* `C28_added_key_is_found`, `C28_save_load`, `C28_empty_filter_undefined`.

### C29 lookup booster never changes an answer — partial

*Claim.* A get that goes through the table lookup booster returns the same record as one that does not.

*Modelled.* `Table/Booster*`.  *Proof.* per-element invariant; reader/writer step machine; witness.

*Scope, what is missing or false.* Model: table_lookup_booster.cc get/setIfNew, and TableFile::setSingle/get through it; readers interleaved with one writer. Proved: with one call at a time a read sees what was last written, for every hash function and booster size; at any interleaving a read only gets records of its own key; if no two different hash values share an element every read is at least as new as its start. False in general: a delayed reader puts an old version back after the newer one was evicted (C29_race_violation). Not modelled: torn reads of an element (the lock index and the element index differ), reads from snapshots (they bypass the booster).

*Theorems.* `C29_sequential`, `C29_sequential_same`, `C29_own_key`, `C29_concurrent_partial`.
*Counterexamples.* `C29_race_violation`.

### C30 log files are destroyed exactly once and never in use — partial

*Claim.* A log file that has been dropped from the log is destroyed exactly once, only when no reader, iterator or snapshot holds it, and is always destroyed once the last holder lets go.

*Modelled.* `Conc/RefCount`.  *Proof.* step machine with any number of threads, inductive invariant; witnesses.

*Scope, what is missing or false.* False in general: a file can leak (removal between another holder's read of the flag and its decrement) and, in log-section-only mode with snapshots, be destroyed twice. Proved without snapshot holders for at-most-once and never-in-use in every interleaving; always-destroyed only if removal does not begin inside another release; with snapshots only for non-overlapping calls.

*Theorems.* `C30_destroyed_once_unused_partial`, `C30_destroyed_at_last_partial`, `C30_sequential_partial`.
*Counterexamples.* `C30_leak_violation`, `C30_double_destroy_violation`.

### C31 background operations exclude each other — proved

*Claim.* At most one sync and at most one flush run on a DB at a time; an attempt while another one runs returns OPERATION_IN_PROGRESS and changes nothing; the permission is always given back.

*Modelled.* `Conc/Sema`.  *Proof.* CAS machine, inductive invariant.

*Scope, what is missing or false.* Every number of threads and interleaving. The violation theorem records that an attempt that read the flag before close may still start after close.

*Theorems.* `C31_at_most_one`, `C31_no_start_while_running`, `C31_refused_changes_nothing`, `C31_given_back`.
*Counterexamples.* `C31_start_after_close_violation`.

### C32 compaction locks are exclusive and all-or-nothing — proved

*Claim.* A table is never worked on by two compactions, splits or merges at once, and an attempt that cannot lock everything it needs holds no lock afterwards.

*Modelled.* `Conc/Locks`.  *Proof.* state machine, inductive invariant.

*Scope, what is missing or false.* Constructors and unlock are atomic (they run under one mutex).

*Theorems.* `C32_exclusive`, `C32_locked_iff_held`, `C32_release`, `C32_acquire`, `C32_all_or_nothing`.

### C33 direct I/O reads back what was appended — partial

*Claim.* Bytes appended through the aligned direct-I/O layer are read back unchanged at their offsets, before and after flush, and padding added by a flush is recognised as padding when the file is loaded.

*Modelled.* `IO/Direct*`.  *Proof.* file-image invariant over histories of calls.

*Scope, what is missing or false.* Proved for every history of open, append, flush and truncate and all sizes with the block dividing the buffer: flushed bytes are read back at any offset, a log file written and reopened through the layer loads exactly with its padding recognised, and a crash in a sync keeps the earlier syncs. False before a flush: C33_unflushed_violation. C33_thread_buffer_violation and C33_assert_violation are faults of the code found on the way; C33_torn_status shows a torn tail reported as a checksum error.

*Theorems.* `C33_flushed_read_partial`, `C33_open_truncate`, `C33_flush_fits`, `C33_aligned`, `C33_load`, `C33_reopen`, `C33_crash`, `C33_writes`, `C33_torn_status`.
*Counterexamples.* `C33_unflushed_violation`, `C33_thread_buffer_violation`, `C33_assert_violation`.

### C34 key order is a total order — partial

*Claim.* The key comparison used by the DB is a total order on byte strings (antisymmetric, transitive, total), equality of keys coincides with equality of bytes, and the comparison operators agree with the three-way comparison.

*Modelled.* `Codec/KeyOrder`.  *Proof.* order laws; witness beyond 2 GiB.

*Scope, what is missing or false.* The three-way comparison is proved for keys shorter than 2 GiB and refuted beyond (C34_huge_key_violation).

*Theorems.* `C34_operators`, `C34_total_order`, `C34_cmp_partial`, `C34_cmp_order_partial`.
*Counterexamples.* `C34_huge_key_violation`.

### C35 checksum implementation is correct and chains — proved

*Claim.* The eight-byte-at-a-time CRC-32 equals the byte-at-a-time CRC-32 on every input and starting value, and checksumming a concatenation equals checksumming its parts in sequence.

*Modelled.* `Codec/Crc`, `Codec/CrcTable`.  *Proof.* the literal tables satisfy the table recurrence (kernel evaluation of the whole finite table), then induction over the data.

*Theorems.* `C35_crc_correct`, `C35_crc_chains`.

### C36 read-only and closed handles reject writes — partial

*Claim.* On a read-only handle, a snapshot handle or a handle being closed, every write API returns an error and changes nothing.

*Modelled.* `DB/Model`, `Props/ReadOnly`.  *Proof.* decision logic; witnesses.

*Scope, what is missing or false.* Proved for every state and every call except checkpoint (closing handles) and except checkpoint, flushLogs and the compaction calls (read-only handles). The full claim is false of the code: the violation theorems show checkpoint and global batches accepted on a closing handle, flush, compaction and checkpoint markers taking effect on a read-only handle, and a write through a snapshot handle.

*Theorems.* `C36_closing_partial`, `C36_rollback_in_progress_partial`, `C36_read_only_partial`.
*Counterexamples.* `C36_closing_checkpoint_violation`, `C36_readonly_flush_violation`, `C36_readonly_checkpoint_violation`, `C36_readonly_compact_violation`, `C36_snapshot_write_violation`, `C36_closing_global_batch_violation`.

### C37 positions of the log never cross — partial

*Claim.* At all times: last flushed sequence number <= last synced <= maximum, within each log file and for the whole DB; only synced records are moved to tables.

*Modelled.* `Log/LogMgr`.  *Proof.* fields `syncedLe`, `lastF`, `lastS` of `LogInv`.

*Scope, what is missing or false.* order of positions proved; the clause that only synced records are moved is broken by the code (witness proved)

*Theorems.* `C37_positions_ordered`.
*Counterexamples.* `C37_unsynced_flushed_violation`.

### C38 level-0 hash partitioning is consistent — partial

*Claim.* A key is always written to, looked up in and compacted from the same level-0 partition, including with a custom key length for hashing, and prefix search visits the right partitions.

*Modelled.* `Table/Model`.  *Proof.* writer and reader use the same function; invariant `l0Recs`; witness.

*Scope, what is missing or false.* Writing, lookup and compaction agree on the partition for every hash function; changing the number of partitions is invisible when no compaction is unfinished, and can bring back old values otherwise (violation). Prefix search not covered here.

*Theorems.* `C38_partition_of_stored`, `C38_flushed_is_found`, `C38_repartition_partial`.
*Counterexamples.* `TableEx.C38_repartition_violation`.

### C39 discardDirty removes only unsynced records — partial

*Claim.* discardDirty(n) removes the visible effect of records with numbers from n on that are not yet synced, never a synced one, and leaves the older version of the key visible.

*Modelled.* `Log/Discard`, `DB/Discard`.  *Proof.* executions with discards; kept = filter.

*Scope, what is missing or false.* Proved for every execution with discards (writes, batches, syncs, flushes, checkpoints, table maintenance): what discardDirty removes and keeps, reads afterwards, no number reuse, errors change nothing. False parts are shown by witnesses: a synced record is discarded (and comes back after reopening), a record written to tables by a flush with an explicit number above the last synced one stays visible, a fully discarded key leaves a node on which key searches dereference end(). Not covered: concurrent readers, unloaded memtables.

*Theorems.* `C39_reads_partial`, `C39_discard_partial`, `C39_refused_changes_nothing`, `C39_accepted`.
*Counterexamples.* `C39_synced_violation`, `C39_comes_back_violation`, `C39_flushed_unsynced_violation`, `C39_empty_node_violation`.

### C40 the ordered index behaves as a sorted map — proved

*Claim.* The in-memory index returns, for every insertion history and every random level assignment, exactly what a sorted map would for exact, nearest-smaller and nearest-greater lookup, and for forward and backward traversal.

*Modelled.* `Index/Skip*`.  *Proof.* pointer model; refinement to a sorted list per layer.

*Scope, what is missing or false.* Pointer-level model of the skip list, one call at a time, any heights, duplicates allowed or refused. Backward traversal gives each node once only if keys are distinct (with equal keys prev skips them; the by-key index refuses duplicates). Calls at the same time are property C47.

*Theorems.* `C40_find`, `C40_le`, `C40_ge`, `C40_prev`, `C40_next_removed`, `C40_traverse`, `C40_insert`, `C40_erase`, `C40_size`, `C40_free`.

### C41 reclaiming log memory and files is invisible — partial

*Claim.* Dropping a fully flushed log file, or evicting and reloading its in-memory table, changes no answer of get or getSN for records that are not flushed.

*Modelled.* `Conc/Evict`.  *Proof.* step machine.

*Scope, what is missing or false.* Eviction and reload: the table is present while in use (all interleavings of grab, done and the reclaimer), and in log-section mode a memtable that is deleted and loaded again changes no read (all histories of LogReach). Missing: the two combined in one concurrent model, and the time a file expires (left open, any file the reclaimer may take).

*Theorems.* `C41_memtable_present`, `C41_not_purged_in_use`, `C41_evict_invisible`.

### C42 sub-DB names and identifiers correspond — partial

*Claim.* Each named sub-DB gets one identifier, different names get different identifiers, identifier 0 is never given out, and the mapping is restored when the manifest is reloaded.

*Modelled.* `Codec/DbManiLemmas`.  *Proof.* bijection + round trip.

*Scope, what is missing or false.* False for names with zero bytes or of 256 bytes and more, and when the DB manifest file is damaged (the backup is written but never read).

*Theorems.* `C42_name_id_correspond_partial`.
*Counterexamples.* `C42_zero_byte_violation`, `C42_long_name_violation`, `C42_damaged_manifest_violation`.

### C43 no lost wake-up of background workers — partial

*Claim.* A request signalled to a background worker before or while it goes to sleep wakes it up; it never sleeps through a pending request.

*Modelled.* `Conc/Awaiter`.  *Proof.* step machine; witnesses.

*Scope, what is missing or false.* False with delayed requests in the queue and with spurious failures of compare_exchange_weak (both shown); proved otherwise for any number of requesters and interleaving.

*Theorems.* `C43_no_lost_wakeup_partial`, `C43_asleep_only_if_empty_partial`, `C43_signal_progress`.
*Counterexamples.* `C43_delayed_request_violation`, `C43_spurious_failure_violation`.

### C44 background flush requests are not lost or weakened — partial

*Claim.* Requests queued for the background flusher are executed in order, one per DB, and merging a new request into a queued one never makes it flush less or drop a completion handler.

*Modelled.* `Conc/FlusherQ`.  *Proof.* queue algebra; witness.

*Scope, what is missing or false.* Merging overwrites the sequence number, so a request can be weakened (shown). Order, one per DB and handlers are proved.

*Theorems.* `C44_one_per_db`, `C44_order`, `C44_handlers_kept`, `C44_latest_wins_partial`.
*Counterexamples.* `C44_weakened_violation`.

### C45 table numbers are never reused — proved

*Claim.* Concurrent compactions and splits never obtain the same table file number, also across reopening.

*Modelled.* `Conc/Numbers`.  *Proof.* atomic counter.

*Scope, what is missing or false.* For fewer than 2^64-1 numbers in total; reopening starts from the stored counter (C27).

*Theorems.* `C45_numbers_distinct`, `C45_numbers_consecutive`, `C45_numbers_distinct_after_reopen`.

### C46 writers never deadlock — proved

*Claim.* Threads that execute global batches over any sets of DBs, given in any order, together with threads that write to single DBs, never wait for each other for ever: as long as one of them is not finished, one of them can go on, and every execution ends.

*Modelled.* `Conc/LockOrder`.  *Proof.* order of acquisition, no cycle.

*Scope, what is missing or false.* Global batches take the write mutexes in the order of the paths; single writers take one. Throttling and the DB operations under the mutexes are left out.

*Theorems.* `C46_no_deadlock`.

### C47 Searches of the ordered index during insertions give the answer of some content it had meanwhile — partial

*Claim.* The memory index of a log file is searched by reader threads without a lock while a writer thread inserts. Whatever the interleaving, a search for a key, for the greatest key at or below or below a key, or for the least key at or above a key answers as a search in one of the contents the index had between the beginning and the end of the call, so in particular it finds what was inserted before the call began; a step of a traversal passes over no entry that was in the index when the step began; and a reader waits only for a node that is being linked, so each call ends once the insertion in progress has published its node.

*Modelled.* `Index/SkipConc*`.  *Proof.* one inserting thread and one reader, step by step; simulation against the contents the index had.

*Scope, what is missing or false.* Proved for every schedule of one inserting thread (step by step: search, one pointer store per layer, publication, counts) and a reader (step by step): exact search, at-or-below and below answer as a search in one content the index had during the call; a step of a traversal passes over nothing; waiting only for a node being linked; end of the call. False for at-or-above (C47_ge_violation: the reader meets a node that is linked and not published, waits for it, and then goes on with the node after it, which may have been inserted later; the node it waited for is skipped although it was inserted, and its call returned, before the one that is given). Proved for at-or-above: 'nothing' is right, and a node given is in the index and nothing of one of the contents is passed over. Not modelled here: removals at the same time (discardDirty and purge in a memory table), weak memory orders, several inserting threads (the log's write mutex excludes them).

*Theorems.* `C47_find`, `C47_le`, `C47_lt`, `C47_ge_partial`, `C47_next`, `C47_grow`, `C47_waits`, `C47_ends`, `C47_writer`.
*Counterexamples.* `C47_ge_violation`.

### C48 Closing and reopening changes nothing — proved

*Claim.* When a handle is closed in an orderly way (the close syncs) and the database is opened again, every key reads exactly as before, the highest sequence number is the same, and the database can be used, closed and reopened again any number of times with the same guarantees.

*Modelled.* `DB/Session*`, `Log/Reopen`, `Log/Complete`.  *Proof.* histories with restarts; the reopened handle keeps the invariant of the handle before.

*Scope, what is missing or false.* Reads: any history of PReach (all calls, flushes of unsynced records too, earlier restarts). The next session: histories without flushes of unsynced records, at least one write; restarts are orderly closes, or crashes at rest or during a sync that leave the newest log file ending between two records and no log file added since the last sync.

*Theorems.* `C48_close_and_reopen`, `C48_next_session`.

### C49 A rollback is durable and atomic — partial

*Claim.* When rollback(n) has returned OK, the records above n stay gone and the records up to n stay there whatever happens next: closing and reopening, a crash, iterators or snapshots that are still open. A crash during rollback(n) leaves, after reopening, either everything or exactly the records up to n.

*Modelled.* `DB/LogStore*`, `Log/Rollback*`, `Log/LogStore*`.  *Proof.* crash points of a rollback as a relation; the cut file and the old manifest reopen as the cut history.

*Scope, what is missing or false.* Log-section mode with logFileTtl_sec not 0, non-empty database. Proved: after a successful rollback(n) a restart shows exactly the records up to n and the history goes on from there; a process crash at any point of the rollback is atomic if no log file was begun after record n. Counterexamples proved for the rest: with later log files a crash between the truncation and the manifest write leaves a hole; the truncation is not synced, so a power failure after OK brings records back; a reader that holds a removed log file deletes a new, synced file of the same name when it is closed. With truncateInconsecutiveLogs the positive theorems need numbers without gaps (see C50).

*Theorems.* `C49_rollback_durable_partial`, `C49_crash_partial`.
*Counterexamples.* `C49_crash_violation`, `C49_power_violation`, `C49_reader_violation`.

### C50 A database without tables keeps its records over restarts — partial

*Claim.* In log-section mode (logSectionOnly), where the log files are the only storage, every synced record is still there after the database was closed or the process was lost and the database is opened again, what is there is a prefix of the history, and the database can go on with the same guarantees.

*Modelled.* `Log/LogStore*`, `DB/RollbackLemmas`, `DB/LogStore*`.  *Proof.* histories with restarts in log-section mode; the files of such a history pass the checks of `LogManifest::load`.

*Scope, what is missing or false.* Proved for every history of LogReach (which includes rollbacks, evictions and earlier restarts): restarts after a sync lose nothing; crashes at rest or during a sync, with at most one log file added since the last sync, keep a prefix with every synced record (with a new log file: only with truncateInconsecutiveLogs). With truncateInconsecutiveLogs = true, the default, this needs numbers without gaps. Counterexamples proved: an explicit gap at a log file boundary loses synced records on an orderly restart; two log files added since the last sync, a crash, and the next session's synced writes are lost at the restart after it.

*Theorems.* `C50_restart_partial`, `C50_crash_partial`, `C50_crash_new_file_partial`, `C50_manifest`.
*Counterexamples.* `C50_gap_violation`, `C50_hollow_violation`.

### C51 Handles are shared and counted — partial

*Claim.* Opening a path that is open returns a usable handle of the same database; the database stays open and usable until as many closes as successful opens were made, and the close that makes them equal closes it (so that everything written is synced). A handle that was returned and not yet closed is never destroyed, no database is destroyed twice, and opening never changes what is on disk of an open database.

*Modelled.* `Conc/Handles`.  *Proof.* transition system of `open`/`close` steps for any number of threads; invariants counting threads per program point.

*Scope, what is missing or false.* Proved for any number of threads when no open looks the path up between the decision of a close to destroy the database and the removal from the map: handles are alive, the same object, and counted. With closes that do not overlap the last one closes the database. The full claim is false of the code: seven counterexamples.

*Theorems.* `C51_safe_partial`, `C51_last_close_partial`, `C51_groups_partial`.
*Counterexamples.* `C51_open_close_violation`, `C51_double_destroy_violation`, `C51_two_closes_violation`, `C51_spurious_violation`, `C51_null_handle_violation`, `C51_group_violation`, `C51_duplicate_open_violation`.

### C52 Skipping the manifest in syncs keeps synced records — partial

*Claim.* With skipManifestSync a sync that returned OK protects the same records as without it: after a crash at any point, opening the database finds a prefix of the accepted writes that contains all that were accepted before the last completed sync, and the next session goes on with the same guarantee.

*Modelled.* `DB/SkipSync`.  *Proof.* refinement: every run with skipManifestSync is a run of the session model in which the manifest on disk is one of the candidates; invariant that the flag is set whenever the newest log file is not listed.

*Scope, what is missing or false.* Proved for all histories in which no sync comes before the first write and no write runs between the store of the manifest and the clearing of the flag inside a sync. Both gaps are real: C52_empty_sync_violation, C52_log_section_violation, C52_race_violation lose a record for which a sync returned OK.

*Theorems.* `C52_synced_survive_partial`, `C52_sessions_partial`, `C52_manifest_lists_files`.
*Counterexamples.* `C52_empty_sync_violation`, `C52_log_section_violation`, `C52_race_violation`.

### C53 sync with fsync protects against power failures — partial

*Claim.* After a power failure, opening the database finds a prefix of the accepted writes that contains all that were accepted before the last sync(true) that returned OK, whatever calls of sync(false) - by the user or by the flusher - were made before or after it; when only the process is lost, sync(false) protects like sync(true).

*Modelled.* `DB/NoFsync`.  *Proof.* model of what is forced to disk per log file; invariant by induction over calls; recovery lemma of C08 for any prefix between what was forced and what was written.

*Scope, what is missing or false.* Proved for power failures at rest and histories in which sync(false) has only the newest log file to write (and that file was synced before). Without this restriction the property is false: C53_forgotten_fsync_violation, sync(true) does not call fsync for the older log files that a sync(false) wrote.

*Theorems.* `C53_power_failure_partial`, `C53_process_crash_partial`.
*Counterexamples.* `C53_forgotten_fsync_violation`.

### C54 the ordered tree under the iterators — proved

*Claim.* Any sequence of insertions and removals leaves in the tree exactly what it would leave in a sorted list: no element is lost, doubled or out of order; walking with next or prev from any node visits the neighbours in the order of the comparison function, none skipped; a search for the equal, the first not smaller and the last not greater element gives that element; an insertion of an equal element changes nothing and gives back the one that is there; and the tree stays balanced, so that a call takes logarithmically many steps.

*Modelled.* `Index/Avl`, `Index/AvlOrder`.  *Proof.* structural induction: every rotation restores the stored balance factors and keeps the in-order list; insertion and removal refine the operations on a sorted list; next and prev by the path to the root.

*Scope, what is missing or false.* The tree of src/avltree.cc, with its stored balance factors and rotations as written. Parent pointers are represented by paths. C54_window connects it to the list that the model of the merging iterators (C05) keeps.

*Theorems.* `Avl.C54_contents`, `Avl.C54_walk`, `Avl.C54_search`, `Avl.C54_window`.

### C55 bulk-built databases — partial

*Claim.* A database made with the bulk builder reads, once it is opened, exactly as if the records given to it had been written one after the other: every record is found with its value, metadata and number, nothing else is, each record has its own number, later writes get higher numbers and win over the built records, and the flushed number covers what was built. The same holds for a database made from existing table files that do not overlap, with their smallest keys and largest numbers.

*Modelled.* `Builder/Model`, `Builder/LogLemmas`, `Builder/TableLemmas`, `Builder/Section`, `Builder/DBLemmas`.  *Proof.* induction over the calls of the builder (the table files cut the ascending input), the levels made from the files satisfy the invariant of the table section, the recovered log satisfies the invariant of the log section on top of them; five concrete counterexamples.

*Scope, what is missing or false.* Proved for ascending keys (files: no overlap, number 0 the lowest), with any calls after opening. False in general: files whose number 0 is not the lowest and keys in another order lose records, deletions become live records, numbers can be doubled, and no flushed number is reported. Not covered: closing and opening again after the build, crashes during the build, an empty build followed by writes.

*Theorems.* `C55_built_partial`, `C55_numbers`, `C55_files_partial`.
*Counterexamples.* `C55_flushed_violation`, `BuilderEx.C55_files_violation`, `BuilderEx.C55_order_violation`, `BuilderEx.C55_delete_violation`, `BuilderEx.C55_number_violation`.

### C56 sample keys — partial

*Claim.* A request for n sample keys returns, in finitely many steps and with success, at most n different keys, each of which was written at some time; if only existing keys are asked for, each of them exists at that time. At least one key is returned if there is a key that qualifies, and if n is at least the largest sequence number in use, every existing key is returned.

*Modelled.* `Sampler/Model`, `Sampler/Lemmas`, `Iter/Within`, `Iter/WithinDB`.  *Proof.* the iterator by number is a cursor over an ascending list (C20), a seek beyond the end is followed by a failing next; induction over the remaining samples; for n at least the largest number an invariant says that everything up to a number q is handled and the next seek is not beyond q + 1.

*Scope, what is missing or false.* Proved for every reachable handle: the call returns, with at most n different keys of accepted records, existing ones if asked for; all existing keys if n is at least the largest number; at least one key without liveKeysOnly. False: with liveKeysOnly no key may be returned although some exist; without the sequence index nothing is returned, with success; keys of command records are returned. Not modelled: snapshots and calls of other threads during the call.

*Theorems.* `C56_sample`, `C56_all`, `C56_some`.
*Counterexamples.* `SampleEx.C56_live_violation`, `SampleEx.C56_no_index_violation`, `SampleEx.C56_command_violation`.

### C57 compaction by index traversal — partial

*Claim.* Turning on the option fastIndexScan does not change what reads return: after any compaction every key reads as before, with the value of its last accepted write, whatever the keys are and however the tables of the next level are cut.

*Modelled.* `FastScan/Model`, `FastScan/Lemmas`.  *Proof.* the groups of the traversal are the groups of the normal scan for some choice of the size limits, by induction over the records; so the compaction is a maintenance step of C01.

*Scope, what is missing or false.* Proved for every execution, every function the index may use to shorten keys (at least one byte of the key, then padding) and every compaction from level 0 or from a level in the middle, under the condition that no record passes the start of one destination table with the bytes in the index and the start of another one only with its remaining bytes; for keys that the index holds whole without that condition. False in general: the code reads the whole key only if the bytes are a prefix of the min key of the next table, and then skips over further tables with the bytes of the index (src/table_compaction.cc:249-258). C57_clash shows that every such clash makes the record unreachable; concrete executions lose a synced value and bring an old one back. Not covered: cancelled compactions by traversal, in-place compaction by traversal.

*Theorems.* `FastScan.C57_l0_partial`, `FastScan.C57_level_partial`, `FastScan.C57_short_keys_partial`, `FastScan.C57_clash`.
*Counterexamples.* `FastScan.FastEx.C57_lost_violation`, `FastScan.FastEx.C57_stale_violation`.

### C58 failed table writes are reported — partial

*Claim.* If records cannot be written to the table files, because a file cannot be created or the storage engine refuses a record, then the flush or compaction that wanted to write them returns an error, and every key keeps reading as its last accepted write.

*Modelled.* `Fail/Model`, `Fail/Lemmas`.  *Proof.* a batch of its own for each partition in the induction over the partitions of a flush; for compactions the assignment of records to tables stays valid when records and new tables are taken out of it; the log part of a flush does not depend on the tables.

*Scope, what is missing or false.* False of the code: flushLogs returns the same and treats the log the same whatever fails (proved for all states and failures); records are lost, old values and deleted keys come back, in flushes and in compactions. Proved: keys of partitions without a failure and keys a compaction wrote read as before; no read returns a value that was not written for the key.

*Theorems.* `C58_other_partitions_partial`, `C58_nothing_invented_partial`, `C58_compact_partial`, `C58_compact_missing`, `C58_compact_cause`.
*Counterexamples.* `C58_flush_silent_violation`, `FailEx.C58_flush_lost_violation`, `FailEx.C58_flush_stale_violation`, `FailEx.C58_flush_undeleted_violation`, `FailEx.C58_compact_lost_violation`, `FailEx.C58_compact_stale_violation`.

### C59 calls that share table writers return with all their records written once — proved

*Claim.* Flushes and compactions that run at the same time in one process share the table-writer threads. Each of these calls returns, and only when each of its parts has been written exactly once; the tables a flush leaves are those of a flush that writes the partitions one after the other.

*Modelled.* `Writer/Model`, `Writer/Lemmas`, `Writer/Tables`.  *Proof.* invariant of a transition system: leased writers are disjoint, a payload belongs to the call that holds the writer, a job below the position of its call is either in a payload or done, never both; a measure that each step decreases; writes to different partitions commute.

*Scope, what is missing or false.* All schedules of calls and writer threads over shared writers, each payload slot and lease modelled. A write of a job is one step; event awaiters are replaced by the polling the code also does.

*Theorems.* `Writer.C59_max_writers`, `Writer.C59_exclusive`, `Writer.C59_limit`, `Writer.C59_exactly_once`, `Writer.C59_returns`, `Writer.C59_all_return`, `Writer.C59_flush_sequential`, `Writer.C59_flush_torn`.

### C60 delayed flush requests wake the flush workers once, after their delay — partial

*Claim.* A flush requested with a delay (`flushLogsAsync` with `execDelayUs`) wakes the flush workers once, not before the delay is over and not long after it; if its DB is closed first, the request is dropped and closing is safe.

*Modelled.* `Timer/Model`, `Timer/Lemmas`, `Timer/Progress`.  *Proof.* invariant of a transition system (coordinator, callers, clock): a task is in the list, in the hand of the coordinator or done, and only the event log says how it ended; an invariant on the computed sleep; progress by induction on the position in the list.

*Scope, what is missing or false.* Proved for all schedules: a timer wakes the workers at most once, later than the delay, and never if cancelled; the thread never sleeps a second. While no DB is closed with a timer left: no undefined behaviour, and every timer fires if the timer thread runs; a timer is not late unless the last pass ran another one. False of the code, with witnesses: closing a DB with a pending delayed flush steps past the end of a list; closing while the handler runs frees what it uses; after one timer has run the others wait up to a second; a request made between the wake-up and the end of its timer gets no wake-up.

*Theorems.* `C60_at_most_once`, `C60_not_before_delay`, `C60_cancelled_never_wakes`, `C60_fires_partial`, `C60_defined_partial`, `C60_sleep_bounded`, `C60_in_time_partial`.
*Counterexamples.* `C60_close_violation`, `C60_use_after_close_violation`, `C60_late_violation`, `C60_relies_on_past_violation`.

### C61 background workers serve every DB and partition that needs it — partial

*Claim.* The background flusher and compactor idle in a round only if nothing needs work, work only on what needs it, and every DB (and every level-0 partition) that keeps needing work is served within a bounded number of rounds, however busy the other DBs are.

*Modelled.* `Worker/Pick`.  *Proof.* a rank, the distance from the last DB served to the one in question, falls in every round that does not serve it; the starving run by induction on the rounds.

*Scope, what is missing or false.* Partitions: fair with one DB; with two DBs a partition can starve forever, since the last partition compacted is one number for all DBs. Not modelled: the level-extension branch of the compactor, DBs opened or closed between rounds, several workers.

*Theorems.* `C61_work_conserving`, `C61_flusher_fair`, `C61_compactor_fair`, `C61_partition_fair_partial`.
*Counterexamples.* `C61_partition_starves_violation`.

### C62 throttling pauses are those of the options — partial

*Claim.* Writers do not pause for the global log throttling while there are no more log files than startNumLogs, pause maxSleepTimeMs from limitNumLogs on and never longer, and never shorter for more log files; a throttled compaction works the configured share of the time. One database slows its writers down only with more log files than throttlingNumLogFilesSoft, to the speed of its flushes and no further; with more than throttlingNumLogFilesHard it slows them down further with every log file; the pauses get shorter after a flush and end.

*Modelled.* `Worker/Throttle`, `Worker/Backpressure`.  *Proof.* arithmetic on wrapping numbers; exact fractions for the rates.

*Scope, what is missing or false.* The linear rule holds for startNumLogs < limitNumLogs and products below 2^32; equal bounds divide by zero, swapped bounds switch the throttling off. Back pressure of one database: off below both limits, the rate of the flushes over the soft one, pauses exact, fading and over after a bounded time. False of the code: the hard limit has an effect of its own only from 128 log files on, whatever it is set to, and none in log-section mode; two flushes within a millisecond switch the pauses off; a hard limit below the soft one slows writers down below the soft limit. Floating point numbers are exact fractions and sleeps are not rounded to whole microseconds.

*Theorems.* `C62_pause_bounded`, `C62_no_pause`, `C62_pause_partial`, `C62_compaction_share`, `C62_back_off`, `C62_back_soft`, `C62_back_hard_partial`, `C62_back_bound`, `C62_back_reached`, `C62_back_fades`, `C62_back_ends`.
*Counterexamples.* `C62_equal_bounds_violation`, `C62_swapped_bounds_violation`, `C62_back_hard_violation`, `C62_back_interval_violation`, `C62_back_log_only_violation`, `C62_back_soft_violation`.

### C63 tables are repaired after a crash inside a merge — partial

*Claim.* If the process dies while two neighbouring tables of a level are being merged, the next start and the background repair that follows give every key the value it had before the merge, even if the repair is itself cut off by crashes; until then no read gives a wrong value, and the history can go on afterwards.

*Modelled.* `Table/Fix`.  *Proof.* a relation between the level before the merge and the damaged one (copies of records in the table before), kept by crashes, starts and cut-off repairs; the repair deletes exactly the copies.

*Scope, what is missing or false.* Proved when the repair ends before any other compaction, split or merge does; flushes, begun level-0 compactions, starts and repairs cut off by crashes may come first, in any number. The repair keeps the newer of two records for any content of the two tables, and only clears the mark of a first table. Before the repair a key of the table whose merge was cut off may read as OK with an empty value (C24_crash_in_merge_violation). False if other compactions come first: a deletion compacted into the last level before the repair brings the old value back.

*Theorems.* `C63_repair_restores`, `C63_history_partial`, `C63_reads_before_repair_partial`, `C63_newer_record_stays`, `C63_first_table`.
*Counterexamples.* `C63_deleted_comes_back_violation`.

### C64 Closing a database while background work uses it — partial

*Claim.* Closing the last handle of a database waits until no background flush or compaction uses it, starts none while it waits, always returns, and never frees the database while a thread still uses it; a flush request that was queued for a database is answered exactly once, either after that same database was flushed or with DB_HANDLE_NOT_FOUND if it was closed.

*Modelled.* `Conc/BgTask`.  *Proof.* two invariants (map, memory and lock; counted tasks) over all interleavings; a balance of requests; witnesses step by step.

*Scope, what is missing or false.* Proved for every execution: nothing begins on any database while a close waits, the close ends within 101 of its own steps, every request is answered at most once and none is lost, and DB_HANDLE_NOT_FOUND is only answered for closed databases. Never freed in use: under two conditions (no task longer than the ten seconds of the wait, no log-file reclaimer or command handler with the database on its list); a request flushes its own database if the allocator does not reuse addresses. Each condition is necessary: four violations, each a concrete execution.

*Theorems.* `C64_never_freed_in_use_partial`, `C64_nothing_begins_while_closing`, `C64_close_can_go_on`, `C64_close_returns`, `C64_requests_answered_once`, `C64_not_found_means_closed`, `C64_request_flushes_its_database_partial`.
*Counterexamples.* `C64_long_task_violation`, `C64_close_in_callback_violation`, `C64_reclaimer_violation`, `C64_stale_request_violation`.

### C65 The compaction callback — partial

*Claim.* With a compaction callback set, a compaction changes what a caller can read only for keys whose last written record the callback answered DROP to: such a key reads as not found, never as an older value, and every other key reads as before. When a table of the last level is compacted, the callback is asked once about every record of that table, in key order, with the smallest and the biggest key of the table. A record answered DROP does not exist after the compaction.

*Modelled.* `Table/CompactCb`.  *Proof.* the loop as a filter; invariant of the tables kept; the stack of versions of a key loses its lowest element.

*Scope, what is missing or false.* Answers change only to not-found and only for dropped last records; calls are exactly the records of a last-level table with its min and max key. 'Does not exist after the compaction' is proved when the tables hold one record for the key, and false when a cancelled compaction has left a second copy in a level above. Level-0-only mode (mergeCompactTo, which passes empty min and max keys) is not modelled.

*Theorems.* `C65_last_record_or_dropped`, `C65_no_older_version`, `C65_keep_all`, `C65_get`, `C65_calls`, `C65_asked`, `C65_dropped_is_gone_partial`.
*Counterexamples.* `CbEx.C65_dropped_stays_violation`.

### C66 A user comparator — partial

*Claim.* With a comparator function set in the configuration, a lookup answers with the last record written for the key, and a scan gives exactly the live keys between the start key and the end key in the order of the comparator, whatever total order on keys the comparator implements.

*Modelled.* `Table/CustomCmp`.  *Proof.* the model of C22 with the victim read in the order of the comparator; one-table levels as an invariant; permutation and order of the insertion sort.

*Scope, what is missing or false.* Proved: a comparator that orders keys like their bytes changes nothing (lookups after any division into tables, range scans); any comparator is right as long as no level is divided into several tables, and for scans of unflushed records without an end key. False otherwise: with a descending comparator the first level-0 compaction that makes two tables loses records for lookups (C66_lost_violation), and a range scan over unflushed records gives nothing (C66_scan_violation). The comparator is modelled as an arbitrary order on keys given by a map to a linear order. Missing: level compactions, splits and merges under a comparator, scans of table files, which use the comparator throughout inside one file.

*Theorems.* `C66_byte_like`, `C66_one_table_partial`, `C66_scan_open`, `C66_scan_partial`, `C66_scan_byte_like`.
*Counterexamples.* `C66_lost_violation`, `C66_scan_violation`.

### C67 Memory of keys, values and records — partial

*Claim.* A program that moves, copies, refers to, resizes and frees buffers and records through the API, without overwriting a buffer that owns memory and without copying ownership by assignment, frees every block exactly once and in the right way, reads no freed memory, and leaves nothing behind when it has freed its buffers; a copy holds the bytes of its source in memory of its own, a move hands them over, and what a buffer owns changes only by calls on that buffer.

*Modelled.* `Mem/Buf`.  *Proof.* every live block has exactly one owner, as an invariant of the steps of a program; frame lemmas for the contents.

*Scope, what is missing or false.* Proved for all programs that keep the listed rules. Two of the rules are not in the documentation and their breach is a fault of the code: resize(0) frees the memory and keeps owning it (double free), moving a buffer to itself loses it. Sizes of 4 GiB and more are cut to 32 bits. The rules on assignment and overwriting are documented; the witnesses show they are needed, also that clone loses the meta of a record without key and value. realloc of size 0 is that of glibc. Not modelled: which buffers the database itself allocates for its callers.

*Theorems.* `C67_safe`, `C67_no_leak`, `C67_free`, `C67_copy`, `C67_move`, `C67_independent`, `C67_record_copy`, `C67_clone`, `C67_record_move`, `C67_record_free`.
*Counterexamples.* `C67_resize_zero_violation`, `C67_self_move_violation`, `C67_assign_violation`, `C67_overwrite_violation`, `C67_huge_violation`.

### C68 When and what background compaction compacts — partial

*Claim.* Background compaction starts only on a writable database whose compaction is not paused, only for a reason in the documentation (the level is over its limit, an interrupted merge is to be repaired, a table is 1.5 times too big, its file is mostly stale, there are many small tables, the user asked for it), and only on a table of that level that no other compaction has locked. Work that is due is found: a level over its limit first, then repairs, splits (the oldest first), stale tables (the most stale first), merges. A request of the user ends once every table has been rewritten. A table without stale data is left alone.

*Modelled.* `Worker/CompactCond`.  *Proof.* case analysis on the order of the checks; folds that pick the oldest, the most stale and the smallest table, by induction on the list of tables.

*Scope, what is missing or false.* Proved for all configurations and tables, except that the table taken for a merge may be locked (the merge then fails, and no other table is tried). False of the code: with a compaction factor (or debugging ratio) of 100 or less, 0 included, a table without stale data is rewritten for ever; idle-traffic compaction never takes a partition with a second table, because 0 - 100 is computed in unsigned numbers; a leftover table waits for the end of a sequential load; minWssToMerge has no effect in levels that are more than 40% full. Exact comparisons in place of floating point, no products above 2^64 other than that one.

*Theorems.* `C68_off`, `C68_reason_partial`, `C68_merge_has_target`, `C68_merge_small`, `C68_merge_found`, `C68_over_limit`, `C68_priority`, `C68_urgent`, `C68_level0`.
*Counterexamples.* `C68_merge_locked_violation`, `C68_endless_violation`, `C68_idle_violation`, `C68_leftover_violation`, `C68_min_wss_violation`.

### C69 A cloned manifest opens to what was synced when it was made — partial

*Claim.* In log-section mode, cloneManifest copies the manifest and returns a snapshot handle. A database opened read-only with the copy (customManifestPath) works as a snapshot: it shows every record that was synced when the copy was made, whatever is written to the original database afterwards, and nothing newer. It is opened only read-only and in log-section mode, and nothing can be written through it. If the copy cannot be made the call says so.

*Modelled.* `DB/Clone`.  *Proof.* each log file only grows (its records and its bytes on disk are prefixes of the later ones), by induction over the calls; the older log files alone satisfy the invariant of the log section; then the lemmas of C50 on opening.

*Scope, what is missing or false.* Proved for every history: the clone shows all records synced when it was made and, after them, only records that were written next, in order; exactly the synced ones as long as nothing is written. False of the code: records that are written later to the newest log file of the clone show up in it, so it is not a snapshot; a record that is not synced when the clone is made is missing although the snapshot handle returned with it covers it; a rollback afterwards takes records from the clone; a failed copy is reported as OK. Log files removed by flushes after the clone are not modelled (the snapshot handle keeps them), nor reading while a sync writes.

*Theorems.* `C69_clone_partial`, `C69_at_once`, `C69_mode`, `C69_readonly`, `C69_closing`.
*Counterexamples.* `C69_later_violation`, `C69_unsynced_violation`, `C69_rollback_violation`, `C69_copy_violation`.

### C70 Statistics leave no key and no table out — partial

*Claim.* getStats counts at least as many key-value pairs as there are keys that can be read, and no more than the records in the tables and those not flushed yet. The table hierarchy lists every table of every level once, with its partition or smallest key. The lowest and highest table and log file numbers are numbers of existing tables and log files, and all others are between them. Nothing is reported on a handle that is being closed.

*Modelled.* `DB/Stats`.  *Proof.* counting over the window of sequence numbers and the levels of tables.

*Scope, what is missing or false.* Proved for every reachable state of a database with tables. The upper bound is exact if no writer chose its own numbers; it is false otherwise: one record with number 10^6 counts as 10^6 pairs. Tombstones in tables are counted as pairs. In log-section mode the lowest table number is 2^64-1 and the highest 0. Sizes, the block cache, memtables and task counts are not modelled.

*Theorems.* `C70_counts_all`, `C70_count`, `C70_hierarchy`, `C70_bounds`, `C70_closing`.
*Counterexamples.* `C70_gap_violation`, `C70_tombstone_violation`, `C70_no_table_violation`.

### C71 Opening removes leftover files and no others — partial

*Claim.* Opening a (sub-)DB for writing removes from its directory exactly those of its own log files, table files and Bloom filter files that its manifests do not list, and touches no file of another sub-DB, no manifest or backup and no other file; opening read-only removes nothing. A file that is to be removed later is removed, and a file that is in use never is.

*Modelled.* `DB/Files`.  *Proof.* uniqueness of the underscore and of trailing digits in names; invariant of the queue.

*Scope, what is missing or false.* Proved for all names and numbers below 2^31. False in full: the number is read with atoi, which is undefined from 2^31; any file with the words log0000_ or table0000_ anywhere in its name is deleted; and the queue of pending deletions works by name, so that it deletes the files of a database created where another one was deleted. Failures of the file system are not modelled.

*Theorems.* `C71_names`, `C71_defined`, `C71_leftovers_partial`, `C71_others`, `C71_read_only`, `C71_sessions_partial`, `C71_queue_keeps_partial`, `C71_queue_empties`.
*Counterexamples.* `C71_number_violation`, `C71_foreign_violation`, `C71_queue_violation`.

### C72 Idle-time compaction is in force when its options say so — partial

*Claim.* Idle-time compaction is never in force with a time window of 0. It is in force exactly when the hour is one of the range of the options (over midnight if the end is smaller, every hour if both are equal) and the process had at most the given number of operations per second in every ten seconds of the given time window.

*Modelled.* `Worker/Idle`.  *Proof.* invariant of the ring of counters, seen from the current slot.

*Scope, what is missing or false.* The decision is characterised for every steady history, the ring of 360 counters included. False in full: a range over midnight includes one hour too many; a process that is younger than the window counts as idle after 20 seconds; windows longer than an hour are cut to an hour; and if the clock leaves out slots, operations of an hour ago count as current. Concurrent calls and spurious failures of the compare-and-swap are not modelled.

*Theorems.* `C72_off`, `C72_hours_partial`, `C72_idle_iff`, `C72_quiet_is_idle`, `C72_idle_is_quiet_partial`.
*Counterexamples.* `IdleEx.C72_hour_violation`, `IdleEx.C72_young_violation`, `IdleEx.C72_window_violation`, `IdleEx.C72_clock_violation`.

### C73 What a sync writes to the log file — partial

*Claim.* A sync that returns OK has appended to the log file exactly the records not synced before, in order, each followed by the markers of its checkpoints, so that the next load finds all of them behind what was there; a sync that fails leaves what was there, and at most a first part of the new records behind it. Writing the records touches no memory outside the buffer of the configured size.

*Modelled.* `Codec/FlushBuf`.  *Proof.* every step adds its bytes to file and buffer together; bound on the buffer.

*Scope, what is missing or false.* Proved for every buffer size, all records and every behaviour of the system calls, as long as no marker of an already synced checkpoint is pending, or the records fit into the buffer. False in full: such a marker is written before the rest of the buffer and can come between the header and the data of a record, which makes the file unreadable from there; a sync that failed in the middle of a record leaves a part of it, and the next sync appends behind it and returns OK, but the load stops there; a value of 2 GiB or more can not be written; a compression that makes a value much longer, or a configured buffer of less than 18 bytes, overruns the buffer. (18 bytes are enough without compression, 20 with). The file layer is the one for append (no direct I/O), one sync at a time.

*Theorems.* `C73_append_iff`, `C73_append`, `C73_sync_bytes_partial`, `C73_failed_sync_bytes_partial`, `C73_sync_load_partial`, `C73_failed_sync_load_partial`, `C73_no_overflow_partial`, `C73_no_overflow_plain`, `C73_marker_partial`, `C73_retry_partial`.
*Counterexamples.* `C73_marker_violation`, `C73_long_value_violation`, `C73_tiny_buffer_violation`, `FlushEx.C73_marker_load_violation`, `FlushEx.C73_retry_violation`, `FlushEx.C73_expansion_violation`.

### C74 The smallest sequence number of the log section — partial

*Claim.* The smallest sequence number of the log section is at most that of every record that waits to be flushed and above every flushed one; once something is flushed it is the last flushed number plus one. It is refused only when every record ever written is flushed, and given only when some record is not; the record with that number exists.

*Modelled.* `Log/MinSeq`.  *Proof.* invariant of the log files; the scan bounds all records of the files from its position on.

*Scope, what is missing or false.* The bounds and the refusal are proved for every reachable state. That a number is given only when a record waits is proved for one log file; that the record exists, for numbers without gaps. False for numbers the writer chose: the number after the last flushed one is returned although no record has it. Concurrent removal of log files is not modelled.

*Theorems.* `C74_bound`, `C74_none`, `C74_some_partial`, `C74_exact_partial`.
*Counterexamples.* `C74_gap_violation`.

### C75 Recognising a directory in log section mode — partial

*Claim.* A directory that was only opened in log section mode is reported to be in log section mode, without opening it; one that is opened with a table section is not, from its first opening on; a directory whose first opening was interrupted can be opened again with the same options.

*Modelled.* `DB/LogMode`.  *Proof.* induction over the history of openings; the first twelve bytes of the stored manifest.

*Scope, what is missing or false.* Proved for every history of openings, flushes and compactions. False when the first opening with tables dies behind the first store of the table manifest: the directory is taken for one in log section mode, and with level 0 only it can never be opened with the same options again; dying before the first byte leaves an empty manifest that no opening accepts. A directory with tables that is opened in log section mode later is not recognised. Flushes and compactions are modelled by what they may do to the manifest; torn stores of later manifests are left out here.

*Theorems.* `LogMode.C75_no_manifest`, `LogMode.C75_log_mode`, `LogMode.C75_tables_partial`, `LogMode.C75_reopens_partial`.
*Counterexamples.* `LogMode.C75_dies_violation`, `LogMode.C75_unopenable_violation`, `LogMode.C75_empty_violation`, `LogMode.C75_converted_violation`.

### C76 Requests to compact all tables up to a number — partial

*Claim.* After a request to compact the tables up to a number, no more compactions are made for it than there are such tables, whatever else changes the tables; the request stays until all of them are gone or its time is over, and ends with the next pass of the compactor then; a request up to 0 stops it.

*Modelled.* `Worker/Urgent`.  *Proof.* induction over runs: new tables have numbers above that of the request.

*Scope, what is missing or false.* The bound is proved for numbers that were already given to a table, the expiry while there is no table with the number 0 and for times below 2^64 microseconds. False in full: while table 0 is there the request never expires; a request up to a number that no table has yet compacts the tables its own compactions create, again and again; an expiry that does not fit in 2^64 microseconds wraps. Which table is taken is decided in C68; that the compactor comes to the database at all, in C61.

*Theorems.* `Urgent.C76_bounded_partial`, `Urgent.C76_zero`, `Urgent.C76_ends`, `Urgent.C76_stays`, `Urgent.C76_expires_partial`.
*Counterexamples.* `Urgent.C76_expiry_violation`, `Urgent.C76_endless_violation`, `Urgent.C76_wrap_violation`.

### C77 Dying in the first opening of a database — partial

*Claim.* If the process dies at any point of the first opening of a directory, the directory can be opened again and then every write is accepted, in that session and in all later ones.

*Modelled.* `DB/FirstOpen`, `Codec/LogMani`.  *Proof.* induction over sessions: the newest log file is listed; counter-invariant: the manifest is the initial one.

*Scope, what is missing or false.* Proved if it dies before the manifest of the log section is created or behind the second store of it. False at every point in between: behind the first store, and at every byte of the second one, the directory opens, but every write is refused with NOT_INITIALIZED in all sessions from then on, while sync returns OK; at every byte of the first store no opening succeeds afterwards. Not covered: writes that reach the disk out of order, damaged newest log files, flushes beyond the last sync (with no largest number they read an uninitialised variable). The table manifest is in C75.

*Theorems.* `FirstOpen.C77_writable_partial`.
*Counterexamples.* `FirstOpen.C77_unwritable_violation`, `FirstOpen.C77_unopenable_violation`.

### C78 Size limits of tables and levels, and writers per job — partial

*Claim.* Each level from 2 on has the size limit of the one before it times the ratio configured for it, the last configured ratio if there is none for it, 10 if there is none at all; limits do not shrink from level to level, and a fixed number of levels is enough for every amount of data. A job has at least one writer, and the configured number if there is one.

*Modelled.* `Table/Limits`.  *Proof.* induction over levels.

*Scope, what is missing or false.* Proved with ratios as exact fractions, for ratios from 1 on (limits do not shrink) and from 2 on (enough levels). False in full: the configuration is not checked, and with a last ratio below 1 the limits become 0, so that every level with data is over its limit; with the defaults the limit of level 9 does not fit 64 bits. Not modelled: the rounding of double above 53 bits.

*Theorems.* `Limits.C78_base`, `Limits.C78_ratio`, `Limits.C78_monotone`, `Limits.C78_enough`, `Limits.C78_writers`, `Limits.C78_share`.
*Counterexamples.* `Limits.C78_vanishes_violation`, `Limits.C78_overflow_violation`.

### C79 Memtables kept in log section mode — partial

*Claim.* In log section mode a pass of the reclaimer purges memtables only of log files that are synced, immutable, not removed and not the first one. Without logFileTtl_sec none is purged for its age. With maxKeepingMemtables no more than the excess is purged, the least recently accessed first, and no more than that number stay. Every purged log file can still be read.

*Modelled.* `Log/Reclaim`.  *Proof.* induction over the files; counting in the sorted list of ages.

*Scope, what is missing or false.* What may be purged is proved for all times and options; that no more than the excess is purged, for files that have not expired; that the least recently accessed are taken, if the clock stands still during the pass; that, with no two access times the same as well, no more than the number stay besides the first file and unsynced ones; that nothing is purged while no database has an expiry time, and that databases with one reload what they read. False in full: if any database of the process has an expiry time, the reclaimer also purges the memtables of databases with logFileTtl_sec 0, all it may purge and in each pass, and these are never reloaded, so that reads go through a null pointer; ages of the second loop are compared with one of the first, so a memtable accessed later can be purged instead of an older one; the first file and unsynced ones are counted and never purged, so more than the number can stay; without an expiry time the number has no effect. All ages of one loop are taken at one time in the model, and no other thread uses the files during the pass (that is Conc/Evict).

*Theorems.* `Reclaim.C79_only`, `Reclaim.C79_kept`, `Reclaim.C79_oldest_partial`, `Reclaim.C79_bound_partial`, `Reclaim.C79_reads`.
*Counterexamples.* `Reclaim.C79_ttl_violation`, `Reclaim.C79_crash_violation`, `Reclaim.C79_clock_violation`, `Reclaim.C79_exceeds_violation`.

## What is modelled and what is not

Modelled, function by function (see the citation at each definition): `jungle.cc` (open of a new
database, set/del/get family, setRecordBatch, sync, flushLogs, checkpoint, getCheckpoints,
openSnapshot, rollback, discardDirty, getNearest, getRecordsByPrefix, handle checks), `log_mgr.cc`,
`log_file.cc`, `memtable.cc` (all of the read/write path, load, flush, checkpoint, purge of
records), `log_manifest.cc` (lookup, store, load, reference counts, reclaim), `table_mgr.cc`,
`table_set_batch.cc`, `table_compaction.cc`, `table_split.cc`, `table_manifest.cc`, the parts of
`table_file.cc`, `table_file_compaction.cc` and `table_file_iterator.cc` they use,
`table_lookup_booster.cc`, `table_helper.cc`, `bloomfilter.cc`, `iterator.cc`, `log_iterator.cc`,
`table_iterator.cc`, `memtable_iterator.cc`, `global_batch.cc`, `flusher.cc` (queue),
`worker_mgr.cc`, `event_awaiter.h`, `db_manifest.cc`, `fileops_directio.cc`, `crc32.cc`,
`skiplist.cc`, `internal_helper.cc`, `sized_buf.h` (comparison), `sampler.cc`, `jungle_builder.cc`, `avltree.cc`.

Assumed of the environment:

* ForestDB is a finite map from key to document with atomic commits and snapshots of commits; its
  file format is not modelled.
* The file system returns what was written; after a crash an append that was not synced leaves an
  arbitrary prefix of its bytes (the torn direct-I/O case leaves arbitrary blocks).  Renames and
  removals take effect in order.
* Murmur hash is an arbitrary function; Snappy decompression inverts compression.
* Atomic operations and mutexes are sequentially consistent.
* Memory allocation succeeds; I/O errors are modelled only where a property speaks about them.

Not modelled: statistics outside C70, logging, throttling outside C62, time-to-live of log files other than as a
choice of what to reclaim, compaction callbacks in level-0-only mode, compaction conditions outside C68 (elsewhere the victim is arbitrary), cold and
sequential-loading table options, start-up and shutdown of the global manager, `cmd` tools, log
compression other than by the round-trip assumption, custom comparators outside C66 (keys have one
linear order), stacks of the abandoned tiering mode, weak memory orders, sequence numbers beyond 2^64.

The table section with concurrent writers is modelled at the granularity of whole maintenance
operations (their halves where a compaction is cancelled); C32 shows that the locks exclude
overlapping ones.  The log section is modelled at the granularity of calls, except where a property
is about interleavings (C12, C14, C29, C30, C31, C32, C41, C43, C46, C47).

Witness states are evaluated with `decide` / `decide +kernel`, which use only the kernel's reduction.

## Findings

Behaviour of the code that contradicts a property; each has a reachable witness proved in Lean.

| where | what happens | theorem |
|---|---|---|
| table_file.cc setSingle | a deletion flushed to level 0 is not added to the Bloom filter: the old value is returned | `C02_bloom_violation` |
| log_mgr.cc openSnapshot | checkpoint whose log files were removed: null dereference | `C03_removed_log_violation` |
| table_file.cc openSnapshot | empty table in a partition: SNAPSHOT_NOT_FOUND | `C03_empty_partition_violation` |
| table_mgr.cc get on snapshots | searches today's tables: newer writes shown, keys lost after compaction | `C03_l0_compaction_violation`, `C03_compaction_violation` |
| memtable.cc assignSeqNum | a fresh log file accepts an explicit number below the last one | `C04_rotation_violation` |
| log_mgr.cc flush + restart | numbers are reused after a flush beyond the last sync | `C04_restart_reuse_violation` |
| log_mgr.cc flush | flush to a number in a gap or in an unsynced file loses data; the next flush is undefined | `C06_gap_violation`, `C06_unsynced_violation`, `C06_flush_after_unsynced_violation` |
| log_mgr.cc | crash in the middle of a flush beyond the last sync: not a prefix | `C08_beyond_flush_violation` |
| memtable.cc load / flush | batch after a torn tail, or after reopening an empty database: sync succeeds, nothing is written | `C08_batch_after_torn_tail_violation`, `C08_batch_after_empty_reopen_violation` |
| log_file.cc load | checksum error in the only log file drops synced data | `C08_checksum_violation` |
| log_mgr.cc init | crash inside the first sync: a later flush loses records | `C08_second_session_violation` |
| memtable.cc record format | flag bytes are covered by no checksum | `C11_flags_violation` |
| log_mgr.cc setMulti | barrier 0 means none: a batch on an empty database is visible half done | `C12_empty_db_violation`, `C14_empty_db_violation` |
| log_mgr.cc flush | flush ignores the barrier | `C12_flush_ignores_barrier_violation` |
| log_mgr.cc get, iterators | number and barrier are loaded separately: half a batch | `C12_reader_race_violation`, `C12_iterator_race_violation`, `C14_reader_race_violation` |
| global_batch.cc | empty part: undefined; second batch or read-only part dropped silently | `C14_empty_part_violation`, `C14_dropped_part_violation` |
| memtable.cc getCheckpoints, table_file.cc | a checkpoint taken when everything is flushed is never listed; a compaction drops listed ones | `C15_flushed_state_violation`, `C15_compaction_violation` |
| log_mgr.cc rollback | gap, empty database, `logFileTtl_sec = 0` | `C16_gap_violation`, `C16_empty_violation`, `C16_no_ttl_violation` |
| log_mgr.cc:292-322 | a crash during a rollback, between the truncation and the manifest write, leaves a hole in the records | `C49_crash_violation` |
| log_file.cc:311 | the truncation is not synced: a power failure after a rollback brings records back | `C49_power_violation` |
| log_file.cc:681-710 | a log file removed by a rollback while a reader holds it is deleted by name later, when a new, synced file has this name | `C49_reader_violation` |
| log_manifest.cc:306-363 | log-section mode: an explicit gap in the numbers at a log file boundary makes the next restart drop synced log files | `C50_gap_violation` |
| log_manifest.cc:306-363 | log-section mode: after a crash with two unsynced log files, the synced writes of the next session are dropped by the restart after it | `C50_hollow_violation` |
| iterator.cc | change of direction skips a one-record source | `C18_violation` |
| iterator.cc seekInternal | SMALLER and seeks beyond the last key show wrong or old records | `C19_violation_smaller`, `C19_violation_stale_prev`, `C19_violation_beyond` |
| iterator.cc by number | seekSN SMALLER, beyond the range, bounds that are no record | `C20_violation_…` |
| memtable.cc / table_manifest.cc nearest search | one neighbour only | `C21_purged_violation`, `C21_empty_table_violation` |
| table_manifest.cc getTablesPrefix | third table skipped; old versions first | `C22_three_tables_violation`, `C22_old_version_violation`, `C22_stale_first_violation` |
| table_mgr.cc get, no level extension | OK with an empty value during the first merge compaction after a reopen, and between adding the result and removing the sources | `C23_l0only_reopen_violation`, `C23_l0only_window_violation` |
| table_split.cc mergeLevel | crash before the manifest is stored brings back old values | `C24_crash_in_merge_violation` |
| bloomfilter.cc | size 0 divides by zero | `C28_empty_filter_undefined` |
| table_lookup_booster.cc | a delayed reader restores an old version | `C29_race_violation` |
| log_manifest.h done | leak and double destruction of log files | `C30_leak_violation`, `C30_double_destroy_violation` |
| log_mgr.h OpSema | operation starts after close | `C31_start_after_close_violation` |
| fileops_directio.cc | unflushed bytes read as padding, thread buffer overflow, assertion on a full buffer, torn flush reported as checksum error | `C33_…_violation`, `C33_torn_status` |
| sized_buf.h cmp | length difference cast to int | `C34_huge_key_violation` |
| jungle.cc | checkpoint, flush, compaction, snapshot writes and global batches pass the handle checks | `C36_…_violation` |
| log_mgr.cc flush | unsynced records reach the tables | `C37_unsynced_flushed_violation` |
| table_mgr.cc adjustNumL0Partitions | old value returns after an unfinished compaction | `C38_repartition_violation` |
| memtable.cc discardDirty | synced records discarded and back after reopen, flushed records stay, empty node | `C39_…_violation` |
| db_manifest.cc | names with zero bytes or ≥ 256 bytes; backup never read | `C42_…_violation` |
| event_awaiter.h / worker_mgr.cc | delayed request, spurious CAS failure: wake-up lost | `C43_…_violation` |
| flusher.cc push | merged request is weakened | `C44_weakened_violation` |
| skiplist.cc | at-or-above search concurrent with insertions skips a finished insertion | `C47_ge_violation` |
| db_mgr.cc close | decision to destroy outside the lock: an `open` returns a handle of a destroyed database; two threads destroy it | `C51_open_close_violation`, `C51_double_destroy_violation` |
| db_mgr.cc close | two closes at the same time, or a spurious CAS failure: nobody closes the database | `C51_two_closes_violation`, `C51_spurious_violation` |
| jungle.cc open | OK and a null handle | `C51_null_handle_violation` |
| jungle.cc open | the object of the loser of two concurrent opens writes its manifest over the winner's | `C51_duplicate_open_violation` |
| jungle.cc close / db_group.cc | `DB::open` on the path of a group is never closed | `C51_group_violation` |
| log_mgr.cc syncInternal, skipManifestSync | a sync of an empty database clears the flag: a record synced later is lost after a crash and a flush, in log-section mode at once | `C52_empty_sync_violation`, `C52_log_section_violation` |
| log_mgr.cc syncInternal, skipManifestSync | the flag set by a write that adds a log file is cleared by a running sync: later syncs return OK and their records are lost in a crash | `C52_race_violation` |
| log_mgr.cc syncInternal, `sync(false)` | log files written without fsync count as synced: a later `sync(true)` returns OK without forcing them to disk | `C53_forgotten_fsync_violation` |
| bulk builder, `src/jungle_builder.cc:57-64` | the search for the table with the smallest key compares with the empty key and never finds any; table number 0 always becomes the lowest table, and if it is not, its records are not found after the build | `BuilderEx.C55_files_violation` |
| bulk builder, `src/jungle_builder.cc:237-239` | the first key of a file is taken for its smallest; records given in another order over three or more files are not found | `BuilderEx.C55_order_violation` |
| bulk builder, `src/jungle_builder.cc:173-241` | the type of the record is not looked at: a deletion becomes a live record with an empty value | `BuilderEx.C55_delete_violation` |
| bulk builder, `src/jungle_builder.cc:233` | the numbers given by the caller do not advance the counter of the builder: two records can get the same number | `BuilderEx.C55_number_violation` |
| bulk builder, `src/log_mgr.cc:147-153` | the flush mark is set before the sync mark and is dropped: a database just built reports no flushed number although all records are in tables | `C55_flushed_violation` |
| sampling, `src/sampler.cc:31-33` | with `liveKeysOnly` the search only goes up from the first position: one sample is asked for, the last record is a deletion, and no key is returned although some exist | `SampleEx.C56_live_violation` |
| compaction with fastIndexScan, `src/table_compaction.cc:249-258` | a shortened key that passes two table borders at once goes to the wrong table: the record cannot be found any more, or an older value comes back | `FastScan.C57_clash`, `FastScan.FastEx.C57_lost_violation`, `FastScan.FastEx.C57_stale_violation` |
| failed writes of a flush, `src/table_set_batch.cc:27-50,199-296` | the status of `TableFile::setBatch` is dropped: `flushLogs` returns OK, removes the log files, and the records are lost; old values and deleted keys come back | `C58_flush_silent_violation`, `FailEx.C58_flush_lost_violation`, `FailEx.C58_flush_stale_violation`, `FailEx.C58_flush_undeleted_violation` |
| failed writes of a compaction, `src/table_compaction.cc:427-431`, `src/table_set_batch.cc:99-113` | a group whose new file cannot be created, and a record that cannot be copied, are skipped, and the source table is removed | `C58_compact_missing`, `FailEx.C58_compact_lost_violation`, `FailEx.C58_compact_stale_violation` |
| timers of delayed flushes, `src/simple_thread_pool.h:549-569` | a cancelled timer is erased and the iterator is incremented all the same: past the end of the list when it was the last, as after closing a DB with a delayed flush pending | `C60_close_violation` |
| closing and delayed flushes, `src/jungle.cc:538-543,1020-1052` | `cancel` fails when the timer is running; the DB is freed and the timer's handler logs through it | `C60_use_after_close_violation` |
| lateness of delayed flushes, `src/simple_thread_pool.h:549-569,603` | the pass stops at the first timer that is due and its sleep ignores the rest of the list: the next timer, due or nearly, waits up to a second | `C60_late_violation` |
| lost delayed flush, `src/jungle.cc:534-535` | a request between the wake-up and the end of the old timer sets no timer; it waits for another request or the workers' own period | `C60_relies_on_past_violation` |
| partitions to compact, `src/compactor.cc:64-77`, `src/compactor.h` | the last partition compacted is one number for all DBs: with two DBs of two partitions, all in need, partition 0 of the first is never compacted | `C61_partition_starves_violation` |
| log throttling with equal bounds, `src/flusher.cc:115-119` | the flusher divides by `limitNumLogs - startNumLogs`, which is zero | `C62_equal_bounds_violation` |
| log throttling with swapped bounds, `src/flusher.cc:115-119` | the difference wraps to almost 2^32 and writers never pause | `C62_swapped_bounds_violation` |
| repair after a crash in a merge, `src/table_split.cc:611-645` | a deletion that reaches the last level before the repair removes the record of the right table only; the copy in the table before is found by reads and moved back by the repair | `C63_deleted_comes_back_violation` |
| closing, `src/jungle.cc:1060-1069` | the wait for background tasks ends after ten seconds whether they have ended or not, and the database is freed under a longer compaction | `C64_long_task_violation` |
| closing in the callback of a flush request, `src/flusher.cc:256-289` | waits ten seconds for itself, then the flusher counts down in the freed object | `C64_close_in_callback_violation` |
| log-file reclaimer and command handler, `src/log_reclaimer.cc:58-79`, `src/cmd_handler.cc:74-95` | use databases found in the map after releasing its lock, and are not counted: a close in between frees the database under them | `C64_reclaimer_violation` |
| queued flush requests, `src/flusher.cc:152-167` | name the database by the address of its object; after a close and an open at the same address the other database is flushed and the callback is told OK | `C64_stale_request_violation` |
| compaction callback, `src/table_file_compaction.cc:52-87` | a record answered DROP is still read if a cancelled compaction has left a second copy of it in a level above; the callback is also asked about deletions, which it sees as empty insertions | `C65_dropped_stays_violation` |
| user comparator, `src/table_manifest.h:82-87`, `src/table_compaction.cc:131-282` | tables of a level are ordered and chosen by the bytes of their min keys while a compaction fills them in the order of `cmpFunc`; as soon as a level has two tables, keys for which the orders differ are not found any more | `C66_lost_violation` |
| user comparator, `src/memtable_iterator.cc:48,62,209` | the end key of an iterator over unflushed records is checked by bytes: a range of a descending order gives nothing | `C66_scan_violation` |
| `SizedBuf::resize`, `include/libjungle/sized_buf.h:403-414` | `resize(0)` frees the block (glibc `realloc`) and the buffer keeps the pointer and the flag: double free | `C67_resize_zero_violation` |
| `SizedBuf::moveTo`, `include/libjungle/sized_buf.h:128-135` | moving a buffer to itself empties it and leaks its memory | `C67_self_move_violation` |
| `SizedBuf::set`, `alloc`, `include/libjungle/sized_buf.h:315,374` | `size_t` sizes are cut to `uint32_t`: a key of 2^32 + n bytes becomes its first n bytes | `C67_huge_violation` |
| `pickVictimTable`, `src/table_compact_condition.cc:206-251` | the second search for a table to merge does not look at the locks: a locked table is taken, the merge fails, no other is tried | `C68_merge_locked_violation` |
| `pickVictimTable`, `src/table_compact_condition.cc:153-166` | with a compaction factor or debugging ratio of 100 or less (0 included, which level 0 takes for "off") a table without stale data is compacted in place again and again | `C68_endless_violation` |
| `chkL0CompactCond`, `src/table_compact_condition.cc:538-540` | the idle-traffic condition uses the debugging ratio minus 100, unsigned: without a debugging ratio it never holds for a partition with a second table | `C68_idle_violation` |
| `chkL0CompactCond`, `src/table_compact_condition.cc:562-579` | sequential loading is checked before the leftover of an interrupted compaction, which then waits | `C68_leftover_violation` |
| `pickVictimTable`, `src/table_compact_condition.cc:206-231` | `minWssToMerge` has no effect unless the tables of the level are less than 40% full on average | `C68_min_wss_violation` |
| `LogManifest::clone`, `src/log_manifest.cc:481-488`; `MemTable::loadRecordsFromFile` | a cloned manifest is not a snapshot: records written later to the newest log file it lists are read too | `C69_later_violation` |
| `DB::cloneManifest`, `src/jungle.cc:319-338` | the clone misses records that are not synced, although the snapshot handle returned with it is at their number | `C69_unsynced_violation` |
| `LogMgr::rollback`, `src/log_mgr.cc:284-316` | a rollback cuts log files that a cloned manifest lists; the clone loses records it showed before | `C69_rollback_violation` |
| `DB::cloneManifest`, `src/jungle.cc:332-333` | the results of the copies are not looked at: a failed clone returns OK | `C69_copy_violation` |
| extreme write throttling, `src/log_mgr.cc:1706-1721` | 128 is hard-coded: a smaller `throttlingNumLogFilesHard` throttles no further, and not at all after a flush of no measurable time; in log-section mode it never does | `C62_back_hard_violation`, `C62_back_log_only_violation` |
| time a throttling rate is in effect, `src/log_mgr.cc:572-579` | it is a multiple of the time between the last two flushes: if this is below a millisecond writers are not slowed down, however many log files there are | `C62_back_interval_violation` |
| `throttlingNumLogFilesHard` below `throttlingNumLogFilesSoft`, `src/log_mgr.cc:1634-1645` | writers are slowed down below the soft limit, although throttling is enabled only above it | `C62_back_soft_violation` |
| `numKvs` of `getStats`, `src/jungle.cc:915-932` | the log section is counted by its highest minus its lowest number: one record written with number 10^6 counts as 10^6 pairs; tombstones in tables count as pairs | `C70_gap_violation`, `C70_tombstone_violation` |
| `minTableIndex` of `getStats`, `src/table_mgr.cc:1029-1057` | without tables (log-section mode) it is 2^64-1, above `maxTableIndex` = 0 | `C70_no_table_violation` |
| `removeStaleFiles`, `src/log_mgr.cc:350-366`, `src/table_mgr.cc:464-479` | file numbers are read with `atoi`: from 2^31 on this is undefined, and with truncation the newest log file or table is deleted when the database is opened | `C71_number_violation` |
| the same | `find` looks for `log0000_` anywhere in a name: `old_log0000_00000005` or `catalog0000_index` of the user are deleted | `C71_foreign_violation` |
| pending deletions, `src/db_mgr.cc:404-435` | are kept by name after a database is closed: if its directory is deleted and a new database created there, the new log file 0 is deleted | `C71_queue_violation` |
| `determineIdleStatus`, `src/db_mgr.cc:498-504` | hours from 23 to 1 include 1:00-1:59 (`>` in place of `>=`), against the comment beside it | `IdleEx.C72_hour_violation` |
| `determineIdleStatus`, `src/db_mgr.cc:505-523` | three known slots are enough: a process is idle after 20 seconds, whatever the window, and a window longer than an hour is cut to an hour | `IdleEx.C72_young_violation`, `IdleEx.C72_window_violation` |
| `updateOpHistory`, `src/db_mgr.cc:470-484` | only the next slot is cleared: after a jump of the clock the count of an hour ago is added to the current one | `IdleEx.C72_clock_violation` |
| `MemTable::flush`, `src/memtable.cc:1430-1446` | the marker of a checkpoint at an already synced number goes to the file before the rest of the buffer: it can come between header and data of a new record, sync returns OK and the load stops there | `C73_marker_violation`, `FlushEx.C73_marker_load_violation` |
| `LogFile::flushMemTable`, `src/log_file.cc:507-529` | after a sync that failed inside a record the next one appends behind the torn bytes and returns OK; the load stops at them | `FlushEx.C73_retry_violation` |
| `FileOpsPosix::append`, `src/fileops_posix.cc:145-157` | every attempt begins at the first byte: more than 2147479552 bytes can never be written | `C73_long_value_violation` |
| `MemTable::flush`, `src/memtable.cc:1287`, `1384-1410` | the buffer is overrun if a compressed value is much longer than the value, or the configured size is less than 18 | `FlushEx.C73_expansion_violation`, `C73_tiny_buffer_violation` |
| `LogMgr::getMinSeqNum`, `src/log_mgr.cc:1888-1902` | the number after the last flushed one is returned even if the writer chose numbers and no record has it | `C74_gap_violation` |
| `DB::isLogSectionMode`, `src/jungle.cc:217`, `TableManifest::create`, `src/table_manifest.cc:110` | the manifest stored first has no tables: if the first opening dies there, the directory is reported to be in log section mode | `LogMode.C75_dies_violation` |
| `TableMgr::init`, `src/table_mgr.cc:253-256`, `330-333` | after the same interruption a database with level 0 only is refused with INVALID_CONFIG by every later opening with its options | `LogMode.C75_unopenable_violation` |
| `TableManifest::create`, `src/table_manifest.cc:102`, `TableMgr::init`, `src/table_mgr.cc:202-212` | dying between the creation of the file and its first store leaves an empty manifest without a backup: no opening succeeds | `LogMode.C75_empty_violation` |
| `DB::isLogSectionMode` of a database with tables opened in log section mode | it is not recognised | `LogMode.C75_converted_violation` |
| `autoClearUrgentCompactionTableIdx`, `src/table_mgr.cc:1165` | table numbers begin with 0: while table 0 is there a request of `compactIdxUpto` does not expire | `Urgent.C76_expiry_violation` |
| `DB::compactIdxUpto` with a number no table has yet, `src/table_compact_condition.cc:132-136` | the tables created by the requested compactions are compacted again, any number of times | `Urgent.C76_endless_violation` |
| `Timer::setDurationMs`, `src/internal_helper.h:157-159`, `src/table_mgr.cc:1152` | long expiry times wrap: 2^58 seconds are none, 18446744073711 are less than two | `Urgent.C76_wrap_violation` |
| `LogMgr::init`, `src/log_mgr.cc:118-192`, with `LogManifest::addNewLogFile` | dying between the two stores of the first opening, or at any byte of the second: later openings add log file 0 without setting the largest number; every write is refused with NOT_INITIALIZED for ever, and sync returns OK | `FirstOpen.C77_unwritable_violation` |
| `LogManifest::create`, `src/log_manifest.cc:230-234` | the manifest file is created under its own name before it is written: dying there, or at any byte of the first store, leaves a file with which no opening succeeds | `FirstOpen.C77_unopenable_violation` |
| `DBConfig::isValid`, `src/db_config.cc:23-25`, with `getLevelSizeLimit`, `src/table_mgr.cc:910-933` | every configuration is valid: with a last ratio below 1 the limits of the levels become 0 and every level with data is over its limit | `Limits.C78_vanishes_violation` |
| `getLevelSizeLimit`, `src/table_mgr.cc:924-931` | with the defaults the limit of level 9 does not fit 64 bits, and the conversion is undefined | `Limits.C78_overflow_violation` |
| `LogFile::isExpired`, `src/log_file.cc:117-123`, with `LogReclaimer::work`, `src/log_reclaimer.cc:63-67` | once a database with a `logFileTtl_sec` is open, each pass also purges the memtables of databases with the value 0 (no expiry, the default) | `Reclaim.C79_ttl_violation` |
| `LogReclaimer::work` with `LogMgr::isLogStoreMode`, `src/log_mgr.cc:377-383` | memtables of databases with `logFileTtl_sec` 0 purged that way are never loaded again: reads dereference a null pointer | `Reclaim.C79_crash_violation` |
| `reclaimExpiredLogFiles`, `src/log_manifest.cc:112-147` | the ages of the second loop are compared with one taken in the first: a memtable accessed later is purged instead of an older one | `Reclaim.C79_clock_violation` |
| `reclaimExpiredLogFiles`, `src/log_manifest.cc:77-82` | the first log file is counted and never purged: more than `maxKeepingMemtables` stay | `Reclaim.C79_exceeds_violation` |
| sampling, `src/sampler.cc:19` | the status of `initSN` is ignored: without the sequence index the call returns OK and no keys | `SampleEx.C56_no_index_violation` |
| sampling, `src/sampler.cc:60-75` | records of type COMMAND are not skipped: the key of a command is returned although it was never inserted | `SampleEx.C56_command_violation` |

Seen while reading and not proved: see the comments at the definitions concerned (for example
unchecked statuses in `openSnapshot`, `findOffsetOfSeq` adding 32-bit lengths, a `flush` buffer
that can overflow, references leaked by `compactL0`, the booster's lock index differing from its
element index, `skiplist_next` never releasing the tail).

## Trusted base

* Lean 4.33.0's kernel.
* Axioms: at most `propext`, `Classical.choice`, `Quot.sound` (next section).  No axioms are
  added; no `sorry`, `admit`, `native_decide` or `bv_decide`.
* From Mathlib: `Order.Basic`, `Order.Nat`, `Order.Defs.LinearOrder`, `Order.BoundedOrder.Basic`,
  `Data.List.{Induction,Nodup,Perm.Basic}`, `Data.Finset.Max` and what they import (all checked by the kernel).
* The reading of the C++ code, documented at each definition, and the assumptions above.


## Axioms per theorem

Output of `#print axioms` for every theorem named in `MANIFEST.json`.  P = `propext`, C = `Classical.choice`, Q = `Quot.sound`, – = none.

* **PCQ** (356): `Avl.C54_contents`, `Avl.C54_search`, `Avl.C54_window`, `BuilderEx.C55_delete_violation`, `BuilderEx.C55_files_violation`, `BuilderEx.C55_number_violation`, `BuilderEx.C55_order_violation`, `C01_bloom`, `C01_bloom_no_invention`, `C01_getRecordByKey`, `C01_get_returns_latest_write`, `C01_lsm`, `C01_setRecordByKey_then_get`, `C01_setSN_then_get`, `C01_set_then_get`, `C01_write_accepted`, `C02_bloom_partial`, `C02_bloom_violation`, `C02_delRecord_then_get`, `C02_delSN_then_get`, `C02_del_then_get`, `C02_deleted_stays_deleted`, `C02_lsm`, `C03_compaction_violation`, `C03_empty_partition_violation`, `C03_flushed_partial`, `C03_l0_compaction_violation`, `C03_latest_partial`, `C03_removed_log_violation`, `C03_snapshot_partial`, `C04_automatic_number`, `C04_numbers_increase`, `C04_old_number_refused_partial`, `C04_restart_reuse_violation`, `C04_rotation_violation`, `C04_torn_numbers`, `C05_getRecord_complete`, `C05_getRecord_sound`, `C05_getRecord_unused`, `C05_getSN`, `C06_flush_after_unsynced_violation`, `C06_flush_defined_partial`, `C06_flush_invisible_partial`, `C06_gap_violation`, `C06_unsynced_violation`, `C07_crash_in_flush_partial`, `C07_rerun_partial`, `C08_batch_after_empty_reopen_violation`, `C08_batch_after_torn_tail_violation`, `C08_beyond_flush_violation`, `C08_checksum_violation`, `C08_second_session_violation`, `C08_sessions_partial`, `C08_synced_survive_partial`, `C08_synced_value_partial`, `C08_torn_reads_partial`, `C08_torn_sessions_partial`, `C09_recovers_prefix`, `C10_log_round_trip`, `C11_corruption_detected_partial`, `C12_batch_invisible_while_running_partial`, `C12_batch_visible_after`, `C12_empty_db_violation`, `C12_flush_ignores_barrier_violation`, `C12_iterator_race_violation`, `C12_reader_race_violation`, `C12_two_moments_partial`, `C13_invalid_batch_no_effect`, `C14_empty_db_violation`, `C14_empty_part_violation`, `C14_global_batch_atomic_partial`, `C14_global_batch_values_partial`, `C14_invalid_changes_nothing`, `C14_reader_race_violation`, `C15_compaction_violation`, `C15_flushed_state_violation`, `C15_kept_partial`, `C15_listing`, `C15_most_recent`, `C15_shows`, `C16_empty_violation`, `C16_gap_violation`, `C16_no_ttl_violation`, `C16_reads`, `C16_refused`, `C16_rollback_keeps`, `C16_rollback_partial`, `C17_iteration`, `C17_live_list_exists`, `C18_all_moves_partial`, `C18_one_turn_partial`, `C18_only_written`, `C18_violation`, `C19_seek_greater_partial`, `C19_seek_smaller_partial`, `C19_violation_beyond`, `C19_violation_smaller`, `C19_violation_stale_prev`, `C20_iteration_partial`, `C20_one_turn_partial`, `C20_only_written`, `C20_seek_greater_partial`, `C20_violation_range`, `C20_violation_range_below`, `C20_violation_seek_beyond`, `C20_violation_seek_smaller`, `C21_empty_table_violation`, `C21_nearest_partial`, `C21_purged_violation`, `C21_side`, `C22_complete_partial`, `C22_old_version_violation`, `C22_stale_first_violation`, `C22_three_tables_violation`, `C23_compaction_invisible`, `C23_crash_during_compaction`, `C23_get_unchanged`, `C23_l0only_compaction_invisible`, `C23_l0only_partial`, `C23_l0only_right_or_blank_partial`, `C23_tables_hold_last_flushed`, `C24_numbers`, `C24_ranges`, `C24_split_merge_invisible`, `C25_meta_round_trip`, `C26_altered_byte_detected`, `C26_store_load`, `C26_torn_backup_harmless`, `C26_torn_file_uses_backup`, `C27_altered_byte_detected`, `C27_store_load`, `C27_torn_file_uses_backup`, `C28_save_load`, `C30_destroyed_at_last_partial`, `C30_destroyed_once_unused_partial`, `C30_sequential_partial`, `C31_at_most_one`, `C31_given_back`, `C31_no_start_while_running`, `C32_acquire`, `C32_all_or_nothing`, `C32_exclusive`, `C32_locked_iff_held`, `C32_release`, `C33_aligned`, `C33_crash`, `C33_flush_fits`, `C33_flushed_read_partial`, `C33_load`, `C33_open_truncate`, `C33_reopen`, `C33_writes`, `C34_cmp_order_partial`, `C34_cmp_partial`, `C34_huge_key_violation`, `C34_operators`, `C34_total_order`, `C35_crc_chains`, `C35_crc_correct`, `C36_closing_checkpoint_violation`, `C36_closing_global_batch_violation`, `C36_readonly_checkpoint_violation`, `C36_readonly_compact_violation`, `C36_readonly_flush_violation`, `C36_snapshot_write_violation`, `C37_positions_ordered`, `C37_unsynced_flushed_violation`, `C38_flushed_is_found`, `C38_partition_of_stored`, `C38_repartition_partial`, `C39_accepted`, `C39_comes_back_violation`, `C39_discard_partial`, `C39_empty_node_violation`, `C39_flushed_unsynced_violation`, `C39_reads_partial`, `C39_refused_changes_nothing`, `C39_synced_violation`, `C40_erase`, `C40_find`, `C40_free`, `C40_ge`, `C40_insert`, `C40_le`, `C40_next_removed`, `C40_prev`, `C40_size`, `C40_traverse`, `C41_evict_invisible`, `C41_memtable_present`, `C41_not_purged_in_use`, `C42_damaged_manifest_violation`, `C42_long_name_violation`, `C42_name_id_correspond_partial`, `C43_asleep_only_if_empty_partial`, `C43_no_lost_wakeup_partial`, `C43_signal_progress`, `C44_handlers_kept`, `C45_numbers_distinct`, `C45_numbers_distinct_after_reopen`, `C46_no_deadlock`, `C47_ends`, `C47_find`, `C47_ge_partial`, `C47_le`, `C47_lt`, `C47_next`, `C47_waits`, `C47_writer`, `C48_close_and_reopen`, `C48_next_session`, `C49_crash_partial`, `C49_crash_violation`, `C49_power_violation`, `C49_reader_violation`, `C49_rollback_durable_partial`, `C50_crash_new_file_partial`, `C50_crash_partial`, `C50_gap_violation`, `C50_hollow_violation`, `C50_manifest`, `C50_restart_partial`, `C51_duplicate_open_violation`, `C51_groups_partial`, `C51_last_close_partial`, `C51_safe_partial`, `C52_empty_sync_violation`, `C52_log_section_violation`, `C52_manifest_lists_files`, `C52_race_violation`, `C52_sessions_partial`, `C52_synced_survive_partial`, `C53_forgotten_fsync_violation`, `C53_power_failure_partial`, `C53_process_crash_partial`, `C55_built_partial`, `C55_files_partial`, `C55_flushed_violation`, `C56_all`, `C56_sample`, `C56_some`, `C58_compact_cause`, `C58_compact_missing`, `C58_compact_partial`, `C58_flush_silent_violation`, `C58_nothing_invented_partial`, `C58_other_partitions_partial`, `C60_at_most_once`, `C60_cancelled_never_wakes`, `C60_defined_partial`, `C60_fires_partial`, `C60_in_time_partial`, `C60_not_before_delay`, `C60_sleep_bounded`, `C61_compactor_fair`, `C61_partition_fair_partial`, `C62_back_bound`, `C62_back_ends`, `C62_back_fades`, `C62_back_hard_partial`, `C62_back_hard_violation`, `C62_back_interval_violation`, `C62_back_log_only_violation`, `C62_back_off`, `C62_back_reached`, `C62_back_soft`, `C62_back_soft_violation`, `C63_history_partial`, `C63_reads_before_repair_partial`, `C63_repair_restores`, `C64_close_in_callback_violation`, `C64_never_freed_in_use_partial`, `C64_request_flushes_its_database_partial`, `C64_requests_answered_once`, `C65_asked`, `C65_calls`, `C65_dropped_is_gone_partial`, `C65_get`, `C65_keep_all`, `C65_last_record_or_dropped`, `C65_no_older_version`, `C66_byte_like`, `C66_one_table_partial`, `C66_scan_byte_like`, `C67_record_move`, `C68_endless_violation`, `C68_merge_found`, `C68_priority`, `C68_urgent`, `C69_at_once`, `C69_clone_partial`, `C69_copy_violation`, `C69_later_violation`, `C69_rollback_violation`, `C69_unsynced_violation`, `C70_bounds`, `C70_closing`, `C70_count`, `C70_counts_all`, `C70_gap_violation`, `C70_hierarchy`, `C70_no_table_violation`, `C70_tombstone_violation`, `C71_defined`, `C71_foreign_violation`, `C71_leftovers_partial`, `C71_names`, `C71_number_violation`, `C71_others`, `C71_queue_empties`, `C71_sessions_partial`, `C72_hours_partial`, `C72_idle_iff`, `C72_idle_is_quiet_partial`, `C72_quiet_is_idle`, `C73_failed_sync_load_partial`, `C73_retry_partial`, `C73_sync_load_partial`, `C74_bound`, `C74_exact_partial`, `C74_gap_violation`, `C74_none`, `C74_some_partial`, `FailEx.C58_compact_lost_violation`, `FailEx.C58_compact_stale_violation`, `FailEx.C58_flush_lost_violation`, `FailEx.C58_flush_stale_violation`, `FailEx.C58_flush_undeleted_violation`, `FastScan.C57_clash`, `FastScan.C57_l0_partial`, `FastScan.C57_level_partial`, `FastScan.C57_short_keys_partial`, `FastScan.FastEx.C57_lost_violation`, `FastScan.FastEx.C57_stale_violation`, `FirstOpen.C77_unwritable_violation`, `FirstOpen.C77_writable_partial`, `IdleEx.C72_window_violation`, `IdleEx.C72_young_violation`, `LogMode.C75_log_mode`, `LogMode.C75_reopens_partial`, `LogMode.C75_tables_partial`, `Reclaim.C79_bound_partial`, `Reclaim.C79_crash_violation`, `Reclaim.C79_oldest_partial`, `Reclaim.C79_ttl_violation`, `SampleEx.C56_command_violation`, `SampleEx.C56_live_violation`, `SampleEx.C56_no_index_violation`, `Urgent.C76_bounded_partial`, `Writer.C59_all_return`, `Writer.C59_exactly_once`, `Writer.C59_exclusive`, `Writer.C59_flush_sequential`, `Writer.C59_flush_torn`, `Writer.C59_returns`, `bytePfx_hit`

* **PQ** (94): `C11_flags_violation`, `C18_moves_return`, `C23_l0only_reopen_violation`, `C23_l0only_window_violation`, `C27_wrong_kind_rejected`, `C28_added_key_is_found`, `C28_empty_filter_undefined`, `C29_concurrent_partial`, `C29_own_key`, `C29_race_violation`, `C29_sequential`, `C29_sequential_same`, `C31_start_after_close_violation`, `C33_torn_status`, `C42_zero_byte_violation`, `C44_latest_wins_partial`, `C44_one_per_db`, `C44_order`, `C45_numbers_consecutive`, `C47_ge_violation`, `C47_grow`, `C60_close_violation`, `C60_late_violation`, `C60_relies_on_past_violation`, `C60_use_after_close_violation`, `C61_flusher_fair`, `C61_partition_starves_violation`, `C61_work_conserving`, `C62_compaction_share`, `C62_no_pause`, `C62_pause_bounded`, `C62_pause_partial`, `C63_first_table`, `C63_newer_record_stays`, `C64_close_can_go_on`, `C64_close_returns`, `C64_long_task_violation`, `C64_not_found_means_closed`, `C64_nothing_begins_while_closing`, `C66_lost_violation`, `C66_scan_open`, `C66_scan_partial`, `C66_scan_violation`, `C67_copy`, `C67_free`, `C67_huge_violation`, `C67_independent`, `C67_no_leak`, `C67_record_copy`, `C67_record_free`, `C67_safe`, `C68_idle_violation`, `C68_level0`, `C68_merge_has_target`, `C68_merge_small`, `C68_reason_partial`, `C71_queue_keeps_partial`, `C71_read_only`, `C73_append`, `C73_append_iff`, `C73_failed_sync_bytes_partial`, `C73_long_value_violation`, `C73_marker_partial`, `C73_marker_violation`, `C73_no_overflow_partial`, `C73_no_overflow_plain`, `C73_sync_bytes_partial`, `C73_tiny_buffer_violation`, `FirstOpen.C77_unopenable_violation`, `FlushEx.C73_expansion_violation`, `FlushEx.C73_marker_load_violation`, `FlushEx.C73_retry_violation`, `IdleEx.C72_clock_violation`, `Limits.C78_base`, `Limits.C78_enough`, `Limits.C78_monotone`, `Limits.C78_ratio`, `Limits.C78_share`, `Limits.C78_vanishes_violation`, `Limits.C78_writers`, `LogMode.C75_converted_violation`, `LogMode.C75_dies_violation`, `LogMode.C75_empty_violation`, `LogMode.C75_no_manifest`, `Reclaim.C79_kept`, `Reclaim.C79_only`, `Reclaim.C79_reads`, `Urgent.C76_endless_violation`, `Urgent.C76_ends`, `Urgent.C76_expires_partial`, `Urgent.C76_expiry_violation`, `Urgent.C76_stays`, `Writer.C59_limit`, `Writer.C59_max_writers`

* **P** (34): `Avl.C54_walk`, `C10_item_faithful`, `C14_dropped_part_violation`, `C16_mode`, `C16_unavailable`, `C30_double_destroy_violation`, `C30_leak_violation`, `C31_refused_changes_nothing`, `C36_closing_partial`, `C36_read_only_partial`, `C36_rollback_in_progress_partial`, `C43_delayed_request_violation`, `C43_spurious_failure_violation`, `C51_double_destroy_violation`, `C51_null_handle_violation`, `C51_open_close_violation`, `C51_spurious_violation`, `C51_two_closes_violation`, `C63_deleted_comes_back_violation`, `C64_reclaimer_violation`, `C64_stale_request_violation`, `C67_clone`, `C68_off`, `C68_over_limit`, `C69_closing`, `C69_mode`, `C69_readonly`, `C71_queue_violation`, `C72_off`, `CbEx.C65_dropped_stays_violation`, `Reclaim.C79_clock_violation`, `Reclaim.C79_exceeds_violation`, `TableEx.C24_crash_in_merge_violation`, `TableEx.C38_repartition_violation`

* **–** (21): `C33_assert_violation`, `C33_thread_buffer_violation`, `C33_unflushed_violation`, `C44_weakened_violation`, `C51_group_violation`, `C55_numbers`, `C62_equal_bounds_violation`, `C62_swapped_bounds_violation`, `C67_assign_violation`, `C67_move`, `C67_overwrite_violation`, `C67_resize_zero_violation`, `C67_self_move_violation`, `C68_leftover_violation`, `C68_merge_locked_violation`, `C68_min_wss_violation`, `IdleEx.C72_hour_violation`, `Limits.C78_overflow_violation`, `LogMode.C75_unopenable_violation`, `Urgent.C76_wrap_violation`, `Urgent.C76_zero`
