{"id": "C01", "title": "get returns the latest write", "statement": "After any sequential history of accepted and refused set / setSN (with a number above the newest one) / del / setRecordBatch / sync / checkpoint / flushLogs (of everything, or up to a synced record's number) / log rotation / table maintenance, get(k) on the live handle returns the value of the most recent operation on k if it was a set, and KEY_NOT_FOUND if it was a deletion or k was never written. With Bloom filters in the tables (off by default) the same holds for every key whose newest operation is not a flushed deletion, and no read returns a value that was never written to the key (flushed deletions under Bloom filters are the subject of C02). (Flushes up to other numbers are the subject of C06, older caller-supplied numbers of C04.)", "quantifier": "every finite history of operations, every key, every distribution of the history over log files and tables", "why_tests_cant": "a test visits a handful of histories; the claim is about all interleavings of writes, rotations and flushes", "anchors": ["src/jungle.cc:DB::get", "src/log_mgr.cc:LogMgr::setSN,LogMgr::get", "src/memtable.cc:MemTable::putNewRecord,getRecordByKeyInternal"]}
{"id": "C02", "title": "a deleted key stays deleted", "statement": "If the most recent operation on a key is a deletion, no point read of the live DB returns a value for that key, wherever older versions of the key are stored (log, level 0, deeper levels), under every configuration including table Bloom filters.", "quantifier": "every history, every placement of older versions across levels, every Bloom filter configuration", "why_tests_cant": "needs the combination of placement, filter and deletion; tests fix one configuration each", "anchors": ["src/jungle.cc:DB::get", "src/table_mgr.cc:TableMgr::get", "src/table_file.cc:TableFile::setSingle,TableFile::get"]}
{"id": "C03", "title": "snapshot isolation", "statement": "get on a snapshot opened at sequence number c returns the newest version of the key with sequence number at most c, and keeps returning exactly that while any further writes, syncs, flushes and log-file removals happen on the parent DB.", "quantifier": "every history before the snapshot, every checkpoint c, every history after it, every key", "why_tests_cant": "the state after an arbitrary continuation cannot be enumerated", "anchors": ["src/jungle.cc:DB::openSnapshot,DB::get", "src/log_mgr.cc:LogMgr::openSnapshot,LogMgr::get", "src/memtable.cc:RecNode::getLatestRecord"]}
{"id": "C04", "title": "sequence numbers are unique and increasing", "statement": "When the caller supplies no sequence numbers, every accepted write gets a sequence number strictly greater than that of every earlier accepted write, across log-file rotation, and getMaxSeqNum returns the last one. A caller-supplied number that is not greater than the newest one is rejected unless overwriting is enabled.", "quantifier": "every history of writes, every rotation point", "why_tests_cant": "uniqueness is a statement about all pairs of writes in unbounded histories", "anchors": ["src/memtable.cc:MemTable::assignSeqNum", "src/log_mgr.cc:LogMgr::setSN,LogMgr::addNewLogFile"]}
{"id": "C05", "title": "getSN returns the record with that number", "statement": "For every sequence number not yet moved to tables, getSN(n) returns exactly the record that was written with number n; for a number never written it reports an error, never another record.", "quantifier": "every history, every sequence number", "why_tests_cant": "holds for all numbers and rotation points", "anchors": ["src/log_mgr.cc:LogMgr::getSN", "src/log_manifest.cc:LogManifest::getLogFileInfoBySeq", "src/memtable.cc:MemTable::findRecordBySeq"]}
{"id": "C06", "title": "flushing is invisible to readers", "statement": "Moving any prefix of the log to tables (flushLogs with any upper bound) changes no answer of get(k), for every key.", "quantifier": "every reachable state, every flush bound, every key", "why_tests_cant": "a flush may be interposed between any two operations", "anchors": ["src/log_mgr.cc:LogMgr::flush", "src/memtable.cc:MemTable::getLogsToFlush", "src/table_set_batch.cc:TableMgr::setBatch", "src/table_file.cc:TableFile::setBatch"]}
{"id": "C07", "title": "crash during flush is harmless", "statement": "If the process dies at any point during a flush (after any prefix of the table writes, before or after the log manifest records the flushed position), reopening and reading gives the same answers as if the flush had not started, and re-running the flush gives the same result as a single one.", "quantifier": "every reachable state, every crash point inside the flush, any number of repeated attempts", "why_tests_cant": "crash points cannot be enumerated by running the code", "anchors": ["src/log_mgr.cc:LogMgr::flush", "src/table_file.cc:TableFile::setBatch", "src/log_manifest.cc:LogManifest::store"]}
{"id": "C08", "title": "synced records survive a crash", "statement": "After sync returns OK, every record written before it is present after a crash and reopen, with identical key, metadata, value, type and sequence number.", "quantifier": "every history, every crash point after the sync, every number of bytes of unsynced tail that reached the disk", "why_tests_cant": "any prefix of the unsynced tail may be on disk", "anchors": ["src/memtable.cc:MemTable::flush,MemTable::load", "src/log_file.cc:LogFile::flushMemTable,LogFile::loadMemTable"]}
{"id": "C09", "title": "crash recovery yields a prefix", "statement": "Whatever prefix of the log file's bytes survives a crash, loading recovers exactly a prefix of the written records, in order, and never a partial, reordered or invented record.", "quantifier": "every sequence of records, every byte position at which the file is cut", "why_tests_cant": "the cut position and the records are both unbounded", "anchors": ["src/memtable.cc:MemTable::load,MemTable::loadRecord"]}
{"id": "C10", "title": "log record round trip", "statement": "Key, metadata, value, type (insertion, deletion, command), sequence number and compression information of every record are restored bit for bit when the log file is read back.", "quantifier": "every record with lengths that fit the 32-bit fields, every number of records and checkpoint markers", "why_tests_cant": "all byte strings of all lengths", "anchors": ["src/memtable.cc:MemTable::flush,MemTable::loadRecord"]}
{"id": "C11", "title": "byte corruption of a log record is detected", "statement": "If a byte of a stored log record's header or payload is altered on disk, opening the file does not return a record with altered content: the record is reported as a checksum error.", "quantifier": "every record, every position covered by a checksum, every wrong byte value", "why_tests_cant": "needs all byte positions and all payloads of all lengths", "anchors": ["src/crc32.cc:crc32_8,crc32_1", "src/memtable.cc:MemTable::loadRecord"]}
{"id": "C12", "title": "batch atomic visibility", "statement": "While setRecordBatch is running, a concurrent get sees either none or all of the batch's records, including on an empty DB.", "quantifier": "every state, every batch, every point of the batch at which a reader runs", "why_tests_cant": "all reader interleavings with all batches", "anchors": ["src/log_mgr.cc:LogMgr::setMulti,getVisibleSeqBarrier,LogMgr::get"]}
{"id": "C13", "title": "invalid batches have no effect", "statement": "A batch containing an unusable sequence number is rejected as a whole: no record of it becomes visible and no sequence number is consumed. An empty batch is rejected.", "quantifier": "every state, every batch", "why_tests_cant": "the bad element can be anywhere in a batch of any size", "anchors": ["src/log_mgr.cc:LogMgr::setMulti,checkBatchValidity"]}
{"id": "C14", "title": "global batch atomicity across DBs", "statement": "While a global batch runs over several DBs, a reader that looks at the DBs sees either all of the batch or nothing of it, and a batch in which any part is invalid changes no DB.", "quantifier": "every set of DBs, every batch, every interleaving of reader and batch steps", "why_tests_cant": "interleavings and DB counts are unbounded", "anchors": ["src/global_batch.cc:GlobalBatchExecutor::execute", "src/db_internal.h:GlobalBatchStatus", "src/log_mgr.cc:getVisibleSeqBarrier"]}
{"id": "C15", "title": "checkpoints are listed and honoured", "statement": "getCheckpoints returns, in ascending order and without duplicates, the most recent checkpoints up to the configured maximum; a checkpoint listed from the log keeps being openable and shows the state at the time it was taken.", "quantifier": "every history of writes, checkpoints and flushes, every configured maximum", "why_tests_cant": "unbounded histories", "anchors": ["src/jungle.cc:DB::getCheckpoints,DB::checkpoint", "src/memtable.cc:MemTable::checkpoint", "src/table_file.cc:TableFile::setCheckpoint"]}
{"id": "C16", "title": "rollback keeps exactly the older records", "statement": "rollback(n) in log-section mode leaves exactly the records with sequence number at most n, and the next write gets n+1.", "quantifier": "every history spread over any number of log files, every n", "why_tests_cant": "n and file boundaries are arbitrary", "anchors": ["src/log_mgr.cc:LogMgr::rollback", "src/memtable.cc:MemTable::findOffsetOfSeq", "src/log_file.cc:LogFile::truncate"]}
{"id": "C17", "title": "key iteration is complete, ordered and duplicate free", "statement": "Iterating forward from the beginning returns every live key exactly once, in ascending order, with its newest visible value, and no deleted key; iterating backward from the end returns the same list reversed.", "quantifier": "every content of the log and the tables, every key range", "why_tests_cant": "all contents and all overlaps between the sources", "anchors": ["src/iterator.cc:Iterator::next,prev,gotoBegin,gotoEnd", "src/log_iterator.cc:LogMgr::Iterator", "src/table_iterator.cc:TableMgr::Iterator"]}
{"id": "C18", "title": "changing direction works", "statement": "At any position of a key iterator, next followed by prev (when both succeed) returns to the same record, and the other way round.", "quantifier": "every content, every position, every sequence of next and prev calls", "why_tests_cant": "all walks of all lengths", "anchors": ["src/iterator.cc:Iterator::next,prev"]}
{"id": "C19", "title": "iterator seek lands on the nearest key", "statement": "seek(k, GREATER) positions the iterator on the smallest live key not less than k; seek(k, SMALLER) on the greatest live key not greater than k.", "quantifier": "every content, every k, both options", "why_tests_cant": "all contents and all seek keys", "anchors": ["src/iterator.cc:Iterator::seekInternal,moveToLastValid"]}
{"id": "C20", "title": "iteration by sequence number", "statement": "An iterator created with initSN returns each record once in ascending sequence-number order, and seekSN lands on the nearest one.", "quantifier": "every content of log and tables, every range", "why_tests_cant": "all contents", "anchors": ["src/iterator.cc:Iterator::initSN,seekSN", "src/memtable_iterator.cc:MemTable::Iterator::seekSN"]}
{"id": "C21", "title": "nearest-record search is exact", "statement": "getNearestRecordByKey returns the last write to the closest key in the requested direction. A deleted key that has not been purged counts as a key and is returned with its deletion mark, as the header file documents. KEY_NOT_FOUND is returned only if no live key lies in that direction. EQUAL is refused.", "quantifier": "every content of log files and tables, every key, every search option, live handle and snapshot", "why_tests_cant": "all contents and keys", "anchors": ["src/jungle.cc:DB::getNearestRecordByKey", "src/log_mgr.cc:LogMgr::getNearest", "src/table_mgr.cc:TableMgr::getNearest", "src/memtable.cc:MemTable::getRecordByKeyInternal"]}
{"id": "C22", "title": "prefix search is complete", "statement": "getRecordsByPrefix reports every live key with the given prefix, each with its newest value.", "quantifier": "every content, every prefix, every distribution over tables", "why_tests_cant": "number of tables a prefix spans is unbounded", "anchors": ["src/jungle.cc:DB::getRecordsByPrefix", "src/table_manifest.cc:TableManifest::getTablesPrefix", "src/table_file.cc:TableFile::getPrefix"]}
{"id": "C23", "title": "compaction preserves contents", "statement": "Compacting a table into the next level, compacting in place and merging two level-0 tables change no answer of get(k), for every key; deletions may be dropped only where no older version can reappear.", "quantifier": "every content of all levels, every choice of victim, every key, every crash point between manifest updates", "why_tests_cant": "all contents, victims and crash points", "anchors": ["src/table_compaction.cc:TableMgr::compactLevelItr,compactL0,compactInPlace", "src/table_file_compaction.cc:TableFile::mergeCompactTo,compactToManually"]}
{"id": "C24", "title": "split and merge preserve contents and ranges", "statement": "Splitting a table into several and merging two neighbouring tables change no answer of get(k), and afterwards every stored key is still in the one table whose range contains it.", "quantifier": "every content, every split threshold, every key", "why_tests_cant": "all contents and split points", "anchors": ["src/table_split.cc:TableMgr::splitTableItr,mergeLevel", "src/table_manifest.cc:TableManifest::getTablesPoint"]}
{"id": "C25", "title": "table metadata round trip", "statement": "User metadata, the deletion mark and the compression information stored with a record in a table are restored exactly, and a record with no metadata comes back with none.", "quantifier": "every metadata byte string, every flag combination", "why_tests_cant": "all byte strings", "anchors": ["src/table_file.cc:TableFile::userMetaToRawMeta,rawMetaToUserMeta,readInternalMeta"]}
{"id": "C26", "title": "log manifest round trip and incremental store", "statement": "After storing the log manifest in any state following any earlier stores, the file on disk decodes to exactly that state, although only the changed suffix is rewritten; an older or torn file is detected and the backup is used.", "quantifier": "every sequence of manifest states, every number of log files", "why_tests_cant": "all pairs of successive states", "anchors": ["src/log_manifest.cc:LogManifest::storeInternal,load", "src/internal_helper.cc:BackupRestore::backup"]}
{"id": "C27", "title": "table manifest round trip", "statement": "Storing and loading the table manifest restores the level count, every table's number, level, hash partition, minimum key and status, and the highest table number.", "quantifier": "every manifest content", "why_tests_cant": "all contents", "anchors": ["src/table_manifest.cc:TableManifest::store,load"]}
{"id": "C28", "title": "Bloom filters never hide a stored key", "statement": "If a key was added to a Bloom filter, the filter answers possibly-present for it, for every filter size above 0, after any further additions, and after saving and loading the filter.", "quantifier": "every filter size above 0, every set of keys, every hash function", "why_tests_cant": "all bit positions for all hash values", "anchors": ["src/bloomfilter.cc:BloomFilter::set,check", "src/generic_bitmap.h", "src/table_file.cc:saveBloomFilter,loadBloomFilter"]}
{"id": "C29", "title": "lookup booster never changes an answer", "statement": "A get that goes through the table lookup booster returns the same record as one that does not.", "quantifier": "every history of writes and reads of any keys, every hash collision pattern, every interleaving of readers with the writer", "why_tests_cant": "collision patterns and interleavings are unbounded", "anchors": ["src/table_lookup_booster.cc", "src/table_file.cc:TableFile::get,setSingle"]}
{"id": "C30", "title": "log files are destroyed exactly once and never in use", "statement": "A log file that has been dropped from the log is destroyed exactly once, only when no reader, iterator or snapshot holds it, and is always destroyed once the last holder lets go.", "quantifier": "every number of holders and every interleaving of their atomic steps with removal", "why_tests_cant": "thread interleavings", "anchors": ["src/log_manifest.h:LogFileInfo::grab,done,grabForSnapshot,doneForSnapshot,setRemoved"]}
{"id": "C31", "title": "background operations exclude each other", "statement": "At most one sync and at most one flush run on a DB at a time; an attempt while another one runs returns OPERATION_IN_PROGRESS and changes nothing; the permission is always given back.", "quantifier": "every number of threads, every interleaving", "why_tests_cant": "thread interleavings", "anchors": ["src/log_mgr.h:OpSema,OpSemaWrapper", "src/log_mgr.cc:LogMgr::flush,syncInternal"]}
{"id": "C32", "title": "compaction locks are exclusive and all-or-nothing", "statement": "A table is never worked on by two compactions, splits or merges at once, and an attempt that cannot lock everything it needs holds no lock afterwards.", "quantifier": "every set of requested tables and levels, every interleaving of lockers", "why_tests_cant": "thread interleavings over arbitrary table sets", "anchors": ["src/table_helper.cc:TableMgr::TableLockHolder,LevelLockHolder", "src/table_mgr.cc:lockTable"]}
{"id": "C33", "title": "direct I/O reads back what was appended", "statement": "Bytes appended through the aligned direct-I/O layer are read back unchanged at their offsets, before and after flush, and padding added by a flush is recognised as padding when the file is loaded.", "quantifier": "every sequence of append, flush, read and reopen with any sizes", "why_tests_cant": "all sizes relative to the buffer and alignment", "anchors": ["src/fileops_directio.cc:FileOpsDirectIO::append,flush,pread,open"]}
{"id": "C34", "title": "key order is a total order", "statement": "The key comparison used by the DB is a total order on byte strings (antisymmetric, transitive, total), equality of keys coincides with equality of bytes, and the comparison operators agree with the three-way comparison.", "quantifier": "every pair and triple of keys", "why_tests_cant": "all byte strings of all lengths", "anchors": ["include/libjungle/sized_buf.h:SizedBuf::cmp,operators"]}
{"id": "C35", "title": "checksum implementation is correct and chains", "statement": "The eight-byte-at-a-time CRC-32 equals the byte-at-a-time CRC-32 on every input and starting value, and checksumming a concatenation equals checksumming its parts in sequence.", "quantifier": "every byte string, every starting value", "why_tests_cant": "all byte strings", "anchors": ["src/crc32.cc:crc32_1,crc32_8"]}
{"id": "C36", "title": "read-only and closed handles reject writes", "statement": "On a read-only handle, a snapshot handle or a handle being closed, every write API returns an error and changes nothing.", "quantifier": "every state, every write operation", "why_tests_cant": "all states and operations", "anchors": ["src/jungle.cc:DB::checkHandleValidity", "src/log_mgr.cc:LogMgr::setSN,setMulti"]}
{"id": "C37", "title": "positions of the log never cross", "statement": "At all times: last flushed sequence number <= last synced <= maximum, within each log file and for the whole DB; only synced records are moved to tables.", "quantifier": "every history of writes, syncs and flushes", "why_tests_cant": "invariant over unbounded histories", "anchors": ["src/log_file.cc:LogFile::setSyncedSeqNum,setFlushedSeqNum", "src/memtable.cc:MemTable::getLogsToFlush"]}
{"id": "C38", "title": "level-0 hash partitioning is consistent", "statement": "A key is always written to, looked up in and compacted from the same level-0 partition, including with a custom key length for hashing, and prefix search visits the right partitions.", "quantifier": "every key, every number of partitions, every custom hash-length function", "why_tests_cant": "all keys and functions", "anchors": ["src/table_set_batch.cc:TableMgr::setBatchHash", "src/table_manifest.cc:getTablesByHash", "src/internal_helper.cc:get_hash_pair,get_data_to_hash"]}
{"id": "C39", "title": "discardDirty removes only unsynced records", "statement": "discardDirty(n) removes the visible effect of records with numbers from n on that are not yet synced, never a synced one, and leaves the older version of the key visible.", "quantifier": "every history, every n", "why_tests_cant": "all states", "anchors": ["src/log_mgr.cc:LogMgr::discardDirty", "src/memtable.cc:MemTable::discardDirty,RecNode::discardRecords"]}
{"id": "C40", "title": "the ordered index behaves as a sorted map", "statement": "The in-memory index returns, for every insertion history and every random level assignment, exactly what a sorted map would for exact, nearest-smaller and nearest-greater lookup, and for forward and backward traversal.", "quantifier": "every sequence of insertions and removals, every choice of node heights", "why_tests_cant": "node heights are random, histories unbounded", "anchors": ["src/skiplist.cc:_skiplist_insert,_sl_find,skiplist_erase_node,skiplist_next,skiplist_prev"]}
{"id": "C41", "title": "reclaiming log memory and files is invisible", "statement": "Dropping a fully flushed log file, or evicting and reloading its in-memory table, changes no answer of get or getSN for records that are not flushed.", "quantifier": "every history, every eviction or reclaim point", "why_tests_cant": "eviction may happen at any time", "anchors": ["src/log_manifest.cc:LogManifest::reclaimExpiredLogFiles", "src/log_file.cc:LogFile::purgeMemTable,loadMemTable"]}
{"id": "C42", "title": "sub-DB names and identifiers correspond", "statement": "Each named sub-DB gets one identifier, different names get different identifiers, identifier 0 is never given out, and the mapping is restored when the manifest is reloaded.", "quantifier": "every sequence of created names", "why_tests_cant": "all name sets", "anchors": ["src/db_manifest.cc:DBManifest::addNewKVS,getKVSID,store,load"]}
{"id": "C43", "title": "no lost wake-up of background workers", "statement": "A request signalled to a background worker before or while it goes to sleep wakes it up; it never sleeps through a pending request.", "quantifier": "every interleaving of the waiter's and the notifier's steps", "why_tests_cant": "thread interleavings", "anchors": ["src/event_awaiter.h:EventAwaiter"]}
{"id": "C44", "title": "background flush requests are not lost or weakened", "statement": "Requests queued for the background flusher are executed in order, one per DB, and merging a new request into a queued one never makes it flush less or drop a completion handler.", "quantifier": "every sequence of push and pop operations", "why_tests_cant": "unbounded queues", "anchors": ["src/flusher.cc:FlusherQueue::push,pop"]}
{"id": "C45", "title": "table numbers are never reused", "statement": "Concurrent compactions and splits never obtain the same table file number, also across reopening.", "quantifier": "every number of threads, every interleaving, every reopen", "why_tests_cant": "thread interleavings", "anchors": ["src/table_manifest.cc:TableManifest::issueTableNumber", "src/log_manifest.cc:LogManifest::issueLogFileNumber"]}
{"id": "C46", "title": "writers never deadlock", "statement": "Threads that execute global batches over any sets of DBs, given in any order, together with threads that write to single DBs, never wait for each other for ever: as long as one of them is not finished, one of them can go on, and every execution ends.", "quantifier": "every number of threads, every list of DBs and batches per thread, every interleaving of their lock and unlock operations", "why_tests_cant": "a deadlock needs a particular interleaving of several threads", "anchors": ["src/global_batch.cc:GlobalBatch::addBatch", "src/global_batch.cc:GlobalBatchExecutor::execute", "src/log_mgr.cc:LogMgr::lockWriteMutex", "src/log_mgr.cc:LogMgr::setSN", "src/log_mgr.cc:LogMgr::setMulti"]}
{"id": "C47", "title": "Searches of the ordered index during insertions give the answer of some content it had meanwhile", "statement": "The memory index of a log file is searched by reader threads without a lock while a writer thread inserts. Whatever the interleaving, a search for a key, for the greatest key at or below or below a key, or for the least key at or above a key answers as a search in one of the contents the index had between the beginning and the end of the call, so in particular it finds what was inserted before the call began; a step of a traversal passes over no entry that was in the index when the step began; and a reader waits only for a node that is being linked, so each call ends once the insertion in progress has published its node.", "quantifier": "all histories of insertions with all heights of the nodes, all schedules of the steps of the writer and of a reader (pointer loads, pointer stores, publication of the node, waits), all calls and keys", "why_tests_cant": "The windows are a few instructions wide: a node linked at some layers only, or linked and not yet published. A stress test meets a few of the schedules, and an answer that no content of the index explains can only be told from a wrong one with the exact history of the contents.", "anchors": ["src/skiplist.cc:_sl_next", "src/skiplist.cc:_sl_find", "src/skiplist.cc:_skiplist_insert", "src/skiplist.cc:skiplist_next", "src/skiplist.cc:skiplist_find_greater_or_equal", "src/memtable.cc:MemTable::getNearest"]}
{"id": "C48", "title": "Closing and reopening changes nothing", "statement": "When a handle is closed in an orderly way (the close syncs) and the database is opened again, every key reads exactly as before, the highest sequence number is the same, and the database can be used, closed and reopened again any number of times with the same guarantees.", "quantifier": "all histories of writes, batches, syncs, flushes, checkpoints, table maintenance, closes, reopens and crashes at rest or during a sync, on databases with a table section (for log-section mode see C50); all keys; all configurations at reopening", "why_tests_cant": "the state on disk depends on the whole history (which log files exist, how much of each is synced and flushed, which manifest was written last), and the guarantee must hold for any number of sessions", "anchors": ["src/log_mgr.cc: LogMgr::init, LogMgr::close, LogMgr::syncInternal", "src/log_manifest.cc: LogManifest::load, LogManifest::store", "src/log_file.cc: LogFile::load", "src/memtable.cc: MemTable::load", "src/jungle.cc: DB::open, DB::close"]}
{"id": "C49", "title": "A rollback is durable and atomic", "statement": "When rollback(n) has returned OK, the records above n stay gone and the records up to n stay there whatever happens next: closing and reopening, a crash, iterators or snapshots that are still open. A crash during rollback(n) leaves, after reopening, either everything or exactly the records up to n.", "quantifier": "all histories in log-section mode before the rollback, all numbers n, all crash points inside and after the rollback, all readers open at that time, all later writes", "why_tests_cant": "the outcome depends on the order of the file truncation, the manifest write and the removal of later log files, and on what of them has reached the disk; a test can stop at a few points only", "anchors": ["src/log_mgr.cc: LogMgr::rollback", "src/log_file.cc: LogFile::truncate, LogFile::destroySelf", "src/log_manifest.cc: LogManifest::load, LogManifest::removeLogFile", "src/log_manifest.h: LogFileInfo::done", "src/db_mgr.cc: DBMgr::addFileToRemove, DBMgr::forceRemoveFiles"]}
{"id": "C50", "title": "A database without tables keeps its records over restarts", "statement": "In log-section mode (logSectionOnly), where the log files are the only storage, every synced record is still there after the database was closed or the process was lost and the database is opened again, what is there is a prefix of the history, and the database can go on with the same guarantees.", "quantifier": "all histories of writes, batches, syncs, checkpoints, rollbacks, memtable evictions and restarts in log-section mode; all crash points; both settings of truncateInconsecutiveLogs", "why_tests_cant": "opening checks the list of log files against each other and drops files that fail; whether a file passes depends on the whole history of rotations, syncs, explicit numbers and earlier crashes", "anchors": ["src/log_manifest.cc: LogManifest::load", "src/log_mgr.cc: LogMgr::init, LogMgr::removeStaleFiles, LogMgr::addNewLogFile", "include/libjungle/db_config.h: truncateInconsecutiveLogs", "src/log_file.cc: LogFile::load, LogFile::loadMemTable"]}
{"id": "C51", "title": "Handles are shared and counted", "statement": "Opening a path that is open returns a usable handle of the same database; the database stays open and usable until as many closes as successful opens were made, and the close that makes them equal closes it (so that everything written is synced). A handle that was returned and not yet closed is never destroyed, no database is destroyed twice, and opening never changes what is on disk of an open database.", "quantifier": "all numbers of threads and interleavings of DB::open and DB::close on one path; all sequences of DB::open, DB::close, DBGroup::open and DBGroup::close; all contents", "why_tests_cant": "the look-up, the count and the removal from the map are separate atomic steps of several threads; which of them overlap is up to the scheduler", "anchors": ["src/jungle.cc: DB::open, DB::close, DBInternal::destroy", "src/db_mgr.cc: DBMgr::openExisting, DBMgr::assignNew, DBMgr::close", "src/db_group.cc: DBGroup::open, DBGroup::close"]}
{"id": "C52", "title": "Skipping the manifest in syncs keeps synced records", "statement": "With skipManifestSync a sync that returned OK protects the same records as without it: after a crash at any point, opening the database finds a prefix of the accepted writes that contains all that were accepted before the last completed sync, and the next session goes on with the same guarantee.", "quantifier": "all histories of single and batched writes, syncs, checkpoints, flushes, table maintenance, closes, crashes and reopenings, all sizes of log files, all states of the disk a crash can leave", "why_tests_cant": "the manifest on disk is stale at almost every moment; whether it is good enough depends on when log files were added, flushed and synced before the crash", "anchors": ["src/log_mgr.cc: LogMgr::syncInternal, LogMgr::addNewLogFile, LogMgr::init", "src/log_manifest.cc: LogManifest::load, LogManifest::store", "include/libjungle/db_config.h: DBConfig::skipManifestSync"]}
{"id": "C53", "title": "sync with fsync protects against power failures", "statement": "After a power failure, opening the database finds a prefix of the accepted writes that contains all that were accepted before the last sync(true) that returned OK, whatever calls of sync(false) - by the user or by the flusher - were made before or after it; when only the process is lost, sync(false) protects like sync(true).", "quantifier": "all histories of writes, syncs with and without fsync, checkpoints, flushes and table maintenance; all sizes of log files; all prefixes of what was written but not forced to disk, independently per log file", "why_tests_cant": "no test can cut the power between fsync calls, and what the operating system had written by then is arbitrary", "anchors": ["src/log_mgr.cc: LogMgr::syncInternal", "src/log_file.cc: LogFile::flushMemTable, LogFile::sync", "src/flusher.cc: Flusher::work", "include/libjungle/jungle.h: DB::sync"]}
{"id": "C54", "title": "the ordered tree under the iterators", "statement": "Any sequence of insertions and removals leaves in the tree exactly what it would leave in a sorted list: no element is lost, doubled or out of order; walking with next or prev from any node visits the neighbours in the order of the comparison function, none skipped; a search for the equal, the first not smaller and the last not greater element gives that element; an insertion of an equal element changes nothing and gives back the one that is there; and the tree stays balanced, so that a call takes logarithmically many steps.", "quantifier": "all sequences of insertions and removals of any length, all element types and all comparison functions that are strict weak orders, all nodes, all searched elements", "why_tests_cant": "the rotations depend on the shape of the whole tree, and there are exponentially many shapes; a wrong balance factor shows only many operations later", "anchors": ["src/avltree.cc: avl_insert, avl_remove, avl_first, avl_last, avl_next, avl_prev, avl_search, avl_search_greater, avl_search_smaller", "src/iterator.cc: Iterator::next, Iterator::prev", "src/log_iterator.cc, src/table_iterator.cc: curWindow"]}
{"id": "C55", "title": "bulk-built databases", "statement": "A database made with the bulk builder reads, once it is opened, exactly as if the records given to it had been written one after the other: every record is found with its value, metadata and number, nothing else is, each record has its own number, later writes get higher numbers and win over the built records, and the flushed number covers what was built. The same holds for a database made from existing table files that do not overlap, with their smallest keys and largest numbers.", "quantifier": "all sequences of records given to the builder, all ways they are cut into table files, all lists of table files, and all calls after opening", "why_tests_cant": "a record can be lost only for particular orders of keys and particular numbers of the table files; the input is unbounded", "anchors": ["src/jungle_builder.cc: Builder::set, Builder::finalizeFile, Builder::commit, Builder::buildFromTableFiles", "include/libjungle/jungle_builder.h: Builder, BuildParams", "src/log_mgr.cc: LogMgr::init"]}
{"id": "C56", "title": "sample keys", "statement": "A request for n sample keys returns, in finitely many steps and with success, at most n different keys, each of which was written at some time; if only existing keys are asked for, each of them exists at that time. At least one key is returned if there is a key that qualifies, and if n is at least the largest sequence number in use, every existing key is returned.", "quantifier": "all histories of calls and restarts, all layouts of log files and tables, all n, both settings of liveKeysOnly", "why_tests_cant": "the sampler jumps through the sequence numbers with a step that depends on n, on gaps, on repeated and on deleted keys; the number of histories is unbounded", "anchors": ["src/sampler.cc: Sampler::getSampleKeys", "include/libjungle/jungle.h: DB::getSampleKeys", "include/libjungle/params.h: SamplingParams", "src/iterator.cc: Iterator::initSN, Iterator::seekSN, Iterator::next"]}
{"id": "C57", "title": "compaction by index traversal", "statement": "Turning on the option fastIndexScan does not change what reads return: after any compaction every key reads as before, with the value of its last accepted write, whatever the keys are and however the tables of the next level are cut.", "quantifier": "all histories of calls and restarts, all keys, all layouts of tables, all ways the index may shorten and pad the keys, all sizes at which new tables are started", "why_tests_cant": "with the option on the code compares shortened keys with the borders of the tables; whether a record ends up in the wrong table depends on the borders and on which bytes the index holds", "anchors": ["src/table_compaction.cc: TableMgr::compactLevelItr", "src/table_file.cc: TableFile::traverseIndex, TableFile::getByOffset", "include/libjungle/db_config.h: fastIndexScan"]}
{"id": "C58", "title": "failed table writes are reported", "statement": "If records cannot be written to the table files, because a file cannot be created or the storage engine refuses a record, then the flush or compaction that wanted to write them returns an error, and every key keeps reading as its last accepted write.", "quantifier": "all histories of calls and restarts, all choices of the partitions, files and records whose writes fail and of the point at which they fail, all keys", "why_tests_cant": "a test would have to inject a failure at every write of every flush and compaction; the property is about all failure points in all states", "anchors": ["src/table_set_batch.cc: TableMgr::setTableFile, TableMgr::setTableFileOffset, TableMgr::setBatchHash", "src/table_file.cc: TableFile::setBatch", "src/table_writer.cc: TableWriterMgr::doTableWrite", "src/table_compaction.cc: TableMgr::compactLevelItr", "src/log_mgr.cc: LogMgr::flush", "include/libjungle/jungle.h: DB::flushLogs, DB::compactL0"]}
{"id": "C59", "title": "calls that share table writers return with all their records written once", "statement": "Flushes and compactions that run at the same time in one process share the table-writer threads. Each of these calls returns, and only when each of its parts has been written exactly once; the tables a flush leaves are those of a flush that writes the partitions one after the other.", "quantifier": "all numbers of writer threads (also 0), of concurrent calls and of partitions or target tables, all limits on parallel writers, all schedules", "why_tests_cant": "the number of schedules of the calls and writer threads is unbounded; a lost or doubled job, or a call that waits for ever, may need one particular schedule", "anchors": ["src/table_writer.h: TableWriterArgs, TableWriter, TableWriterHolder", "src/table_writer.cc: TableWriterMgr::leaseWriters, TableWriterMgr::returnWriters, TableWriterMgr::writerLoop", "src/table_set_batch.cc: TableMgr::setBatchHash", "src/table_compaction.cc: TableMgr::compactLevelItr", "src/table_split.cc: TableMgr::splitLevel", "src/db_config.cc: DBConfig::getMaxParallelWriters"]}
{"id": "C60", "title": "delayed flush requests wake the flush workers once, after their delay", "statement": "A flush requested with a delay (`flushLogsAsync` with `execDelayUs`) wakes the flush workers once, not before the delay is over and not long after it; if its DB is closed first, the request is dropped and closing is safe.", "quantifier": "all numbers of DBs, requests, delays and closings, all schedules of the callers and the timer thread, all clock readings that do not go backwards", "why_tests_cant": "what happens depends on where a request or a close falls between the steps of the timer thread, and on how many other timers there are", "anchors": ["src/simple_thread_pool.h: ThreadPoolMgr::loop, ThreadPoolMgr::addTask, TaskHandle::timeToFire, TaskHandle::execute, TaskHandle::cancel", "src/jungle.cc: DB::flushLogsAsync, DBInternal::destroy", "src/db_mgr.cc: DBMgr::initInternal"]}
{"id": "C61", "title": "background workers serve every DB and partition that needs it", "statement": "The background flusher and compactor idle in a round only if nothing needs work, work only on what needs it, and every DB (and every level-0 partition) that keeps needing work is served within a bounded number of rounds, however busy the other DBs are.", "quantifier": "all numbers of open DBs and partitions, all histories of which DBs and partitions need work, all rounds of a worker", "why_tests_cant": "starvation is a statement about infinite histories of needs; a test sees a few rounds of one of them", "anchors": ["src/flusher.cc: Flusher::work", "src/compactor.cc: Compactor::work, Compactor::chkLevel", "src/compactor.h: lastCompactedHashNum"]}
{"id": "C62", "title": "throttling pauses are those of the options", "statement": "Writers do not pause for the global log throttling while there are no more log files than startNumLogs, pause maxSleepTimeMs from limitNumLogs on and never longer, and never shorter for more log files; a throttled compaction works the configured share of the time. One database slows its writers down only with more log files than throttlingNumLogFilesSoft, to the speed of its flushes and no further; with more than throttlingNumLogFilesHard it slows them down further with every log file; the pauses get shorter after a flush and end.", "quantifier": "all option values, all numbers of log files, all elapsed times", "why_tests_cant": "the arithmetic is on unsigned numbers of two widths with a division; the bad cases are particular option values", "anchors": ["src/flusher.cc: Flusher::calcGlobalThrottling", "src/log_mgr.cc: LogMgr::execBackPressure, LogMgr::adjustThrottling, LogMgr::adjustThrottlingExtreme, LogMgr::getSlowestMergeRate", "src/table_mgr.cc: TableMgr::doCompactionThrottling", "include/libjungle/db_config.h: LogThrottlingOptions, CompactionThrottlingOptions, throttlingThreshold, throttlingNumLogFilesSoft, throttlingNumLogFilesHard"]}
{"id": "C63", "title": "tables are repaired after a crash inside a merge", "statement": "If the process dies while two neighbouring tables of a level are being merged, the next start and the background repair that follows give every key the value it had before the merge, even if the repair is itself cut off by crashes; until then no read gives a wrong value, and the history can go on afterwards.", "quantifier": "all histories of flushes and table maintenance, all tables and levels, all points of the merge and of the repairs at which the process dies, any number of restarts, all keys", "why_tests_cant": "the state to repair depends on how many records had been copied and on everything that happened to the two tables before; tests inject one crash at one point", "anchors": ["src/table_split.cc: TableMgr::mergeLevel, TableMgr::fixTable", "src/table_manifest.cc: TableManifest::load (prevTableSearchRequired)", "src/table_file.cc: TableFile::setSingle", "src/table_compact_condition.cc: TableMgr::pickTableToFix"]}
{"id": "C64", "title": "Closing a database while background work uses it", "statement": "Closing the last handle of a database waits until no background flush or compaction uses it, starts none while it waits, always returns, and never frees the database while a thread still uses it; a flush request that was queued for a database is answered exactly once, either after that same database was flushed or with DB_HANDLE_NOT_FOUND if it was closed.", "quantifier": "Any number of databases and threads (callers, flushers, compactors, the log-file reclaimer, the command handler, callbacks that close databases), every interleaving, every length of every task, and every choice of addresses by the allocator.", "why_tests_cant": "The use of freed memory needs a close that falls between two steps of a background thread, a task longer than the wait limit, or an address that the allocator gives out again; no test drives all these schedules.", "anchors": ["src/db_mgr.cc: DBMgr::openExisting, assignNew, close, closeAll", "src/jungle.cc: DBInternal::destroy, waitForBgTasks", "src/db_internal.h: incBgTask, decBgTask, MAX_CLOSE_RETRY", "src/flusher.cc: Flusher::work", "src/compactor.cc: Compactor::work", "src/log_reclaimer.cc: LogReclaimer::work", "src/cmd_handler.cc: CmdHandler::work"]}
{"id": "C65", "title": "The compaction callback", "statement": "With a compaction callback set, a compaction changes what a caller can read only for keys whose last written record the callback answered DROP to: such a key reads as not found, never as an older value, and every other key reads as before. When a table of the last level is compacted, the callback is asked once about every record of that table, in key order, with the smallest and the biggest key of the table. A record answered DROP does not exist after the compaction.", "quantifier": "Every history of flushes, level-0 and level compactions (finished or cancelled), splits, merges and in-place compactions, every callback function, every key, any number of tables and levels.", "why_tests_cant": "A test sees the answers of one callback on one layout of tables; that dropping never uncovers an older version depends on where every version of a key can be after any history of finished and cancelled compactions.", "anchors": ["src/table_file_compaction.cc: TableFile::isFdbDocTombstone, TableFile::compactToManually", "src/table_compaction.cc: TableMgr::compactInPlace", "include/libjungle/db_config.h: CompactionCbFunc, CompactionCbParams, CompactionCbDecision"]}
{"id": "C66", "title": "A user comparator", "statement": "With a comparator function set in the configuration, a lookup answers with the last record written for the key, and a scan gives exactly the live keys between the start key and the end key in the order of the comparator, whatever total order on keys the comparator implements.", "quantifier": "Every total order on keys, every history of flushes, level-0 compactions with any division into tables, in-place compactions and reopenings, every set of records that are not flushed, every start and end key.", "why_tests_cant": "Two orders are at work, that of the comparator and that of the bytes; whether they disagree on a pair of keys that matters depends on the keys, on the comparator and on where compactions divide a level; the tests of the project use one comparator and few keys.", "anchors": ["include/libjungle/db_config.h: DBConfig::cmpFunc", "src/memtable.cc: MemTable::cmpKey", "src/memtable_iterator.cc: MemTable::Iterator::init, next", "src/table_manifest.h: TableInfo::cmp", "src/table_compaction.cc: TableMgr::compactLevelItr", "src/table_file.cc: TableFile::create"]}
{"id": "C67", "title": "Memory of keys, values and records", "statement": "A program that moves, copies, refers to, resizes and frees buffers and records through the API, without overwriting a buffer that owns memory and without copying ownership by assignment, frees every block exactly once and in the right way, reads no freed memory, and leaves nothing behind when it has freed its buffers; a copy holds the bytes of its source in memory of its own, a move hands them over, and what a buffer owns changes only by calls on that buffer.", "quantifier": "Every program over any number of buffers and records, every size and content, every address the allocator returns.", "why_tests_cant": "Double frees and leaks depend on the sequence of calls and on what the allocator returns; a test runs a few sequences.", "anchors": ["include/libjungle/sized_buf.h: SizedBuf", "include/libjungle/keyvalue.h: KV", "include/libjungle/record.h: Record"]}
{"id": "C68", "title": "When and what background compaction compacts", "statement": "Background compaction starts only on a writable database whose compaction is not paused, only for a reason in the documentation (the level is over its limit, an interrupted merge is to be repaired, a table is 1.5 times too big, its file is mostly stale, there are many small tables, the user asked for it), and only on a table of that level that no other compaction has locked. Work that is due is found: a level over its limit first, then repairs, splits (the oldest first), stale tables (the most stale first), merges. A request of the user ends once every table has been rewritten. A table without stale data is left alone.", "quantifier": "Every configuration, every list of tables with any sizes, numbers and locks.", "why_tests_cant": "The decision depends on some twenty numbers; tests try a few combinations with default settings.", "anchors": ["src/table_compact_condition.cc: TableMgr::chkLPCompactCond, TableMgr::chkL0CompactCond, TableMgr::pickVictimTable, TableMgr::pickTableToFix", "include/libjungle/db_config.h: compactionFactor, minWssToMerge, minFileSizeToCompact", "include/libjungle/params.h: DebugParams"]}
{"id": "C69", "title": "A cloned manifest opens to what was synced when it was made", "statement": "In log-section mode, cloneManifest copies the manifest and returns a snapshot handle. A database opened read-only with the copy (customManifestPath) works as a snapshot: it shows every record that was synced when the copy was made, whatever is written to the original database afterwards, and nothing newer. It is opened only read-only and in log-section mode, and nothing can be written through it. If the copy cannot be made the call says so.", "quantifier": "Every history of writes, batches, syncs, checkpoints and evicted memtables before and after the clone is made, every key and number read, and every moment at which the clone is opened.", "why_tests_cant": "A test clones once and writes one more batch; which of the later records a clone sees depends on how they fell into log files.", "anchors": ["src/jungle.cc: DB::cloneManifest, DB::open", "src/log_mgr.cc: LogMgr::cloneManifest, LogMgr::init", "src/log_manifest.cc: LogManifest::clone", "include/libjungle/jungle.h: cloneManifest", "include/libjungle/db_config.h: customManifestPath"]}
{"id": "C70", "title": "Statistics leave no key and no table out", "statement": "getStats counts at least as many key-value pairs as there are keys that can be read, and no more than the records in the tables and those not flushed yet. The table hierarchy lists every table of every level once, with its partition or smallest key. The lowest and highest table and log file numbers are numbers of existing tables and log files, and all others are between them. Nothing is reported on a handle that is being closed.", "quantifier": "Every history of writes, batches, deletions, syncs, flushes, compactions, splits, merges, restarts and crashes, and every set of keys.", "why_tests_cant": "A test compares one count after one history; the count of the log section is computed from two sequence numbers and so depends on the numbers of all earlier writes and flushes.", "anchors": ["src/jungle.cc: DB::getStats", "src/table_mgr.cc: TableMgr::getStats", "src/log_mgr.cc: LogMgr::getAvailSeqRange, LogMgr::getMinLogFileIndex, LogMgr::getMaxLogFileIndex", "src/table_manifest.cc: TableManifest::getTablesRange", "src/table_file.cc: TableFile::getStats", "include/libjungle/db_stats.h: DBStats, TableHierarchyInfo"]}
{"id": "C71", "title": "Opening removes leftover files and no others", "statement": "Opening a (sub-)DB for writing removes from its directory exactly those of its own log files, table files and Bloom filter files that its manifests do not list, and touches no file of another sub-DB, no manifest or backup and no other file; opening read-only removes nothing. A file that is to be removed later is removed, and a file that is in use never is.", "quantifier": "Every set of files in the directory, every sub-DB number, every file number, every sequence of openings, and every order of creations, removals and background deletions.", "why_tests_cant": "A test looks at the few files of one directory; which files are deleted depends on every pair of names, and on the order in which the background thread deletes pending files.", "anchors": ["src/log_mgr.cc: LogMgr::removeStaleFiles, LogMgr::getManifestFilename", "src/table_mgr.cc: TableMgr::removeStaleFiles, TableMgr::getManifestFilename", "src/log_file.cc: LogFile::getLogFileName, LogFile::destroySelf", "src/table_file.cc: TableFile::getTableFileName, TableFile::destroySelf", "src/db_mgr.cc: DBMgr::addFileToRemove, DBMgr::popFileToRemove, DBMgr::forceRemoveFiles", "src/cmd_handler.cc: CmdHandler::work"]}
{"id": "C72", "title": "Idle-time compaction is in force when its options say so", "statement": "Idle-time compaction is never in force with a time window of 0. It is in force exactly when the hour is one of the range of the options (over midnight if the end is smaller, every hour if both are equal) and the process had at most the given number of operations per second in every ten seconds of the given time window.", "quantifier": "Every history of operations and every clock that leaves out no ten seconds, all options and hours.", "why_tests_cant": "The decision depends on the operations of up to an hour, kept in a ring of counters that is cleared while time passes; a test cannot wait for the ring to come round.", "anchors": ["src/db_mgr.cc: DBMgr::updateOpHistory, DBMgr::determineIdleStatus, DBMgr::setIdleStatus", "src/cmd_handler.cc: CmdHandler::work", "include/libjungle/db_config.h: GlobalConfig::IdleTimeCompactionOptions"]}
{"id": "C73", "title": "What a sync writes to the log file", "statement": "A sync that returns OK has appended to the log file exactly the records not synced before, in order, each followed by the markers of its checkpoints, so that the next load finds all of them behind what was there; a sync that fails leaves what was there, and at most a first part of the new records behind it. Writing the records touches no memory outside the buffer of the configured size.", "quantifier": "All records and compressions, all sizes of the buffer, all numbers of bytes the system calls transfer, all failing calls.", "why_tests_cant": "How records are cut into system calls depends on the sizes of all records before and on the size of the buffer; short writes and full disks come at any of these cuts.", "anchors": ["src/memtable.cc: MemTable::flush, MemTable::appendFlushMarker, MemTable::appendCheckpointMarker, MemTable::checkpoint", "src/log_file.cc: LogFile::flushMemTable", "src/fileops_posix.cc: FileOpsPosix::append", "src/internal_helper.cc: RwSerializer::put", "src/internal_helper.h: append_mem"]}
{"id": "C74", "title": "The smallest sequence number of the log section", "statement": "The smallest sequence number of the log section is at most that of every record that waits to be flushed and above every flushed one; once something is flushed it is the last flushed number plus one. It is refused only when every record ever written is flushed, and given only when some record is not; the record with that number exists.", "quantifier": "All histories of writes, syncs, flushes, compactions and restarts, any number of log files.", "why_tests_cant": "The answer is put together from the marks of several log files, each of which depends on the whole history of splits, flushes and removals.", "anchors": ["src/log_mgr.cc: LogMgr::getMinSeqNum", "src/jungle.cc: DB::getMinSeqNum", "include/libjungle/jungle.h: DB::getMinSeqNum"]}
{"id": "C75", "title": "Recognising a directory in log section mode", "statement": "A directory that was only opened in log section mode is reported to be in log section mode, without opening it; one that is opened with a table section is not, from its first opening on; a directory whose first opening was interrupted can be opened again with the same options.", "quantifier": "All sequences of openings in any mode with any number of partitions, with any flushes and compactions between them, and interruptions of the first opening.", "why_tests_cant": "The answer is read from two numbers of a file that every opening, flush and compaction may rewrite; an interruption can come between any two writes.", "anchors": ["src/jungle.cc: DB::isLogSectionMode", "src/table_mgr.cc: TableMgr::init, TableMgr::adjustNumL0Partitions", "src/table_manifest.cc: TableManifest::create, TableManifest::store, TableManifest::issueTableNumber, TableManifest::extendLevel"]}
{"id": "C76", "title": "Requests to compact all tables up to a number", "statement": "After a request to compact the tables up to a number, no more compactions are made for it than there are such tables, whatever else changes the tables; the request stays until all of them are gone or its time is over, and ends with the next pass of the compactor then; a request up to 0 stops it.", "quantifier": "All sets of tables, all numbers and expiry times, all interleavings of passes, requested compactions and other changes of the tables.", "why_tests_cant": "Every compaction creates tables with new numbers while flushes and other compactions go on; that the request ends depends on all of these numbers, and the expiry on times no test waits for.", "anchors": ["src/table_mgr.cc: TableMgr::setUrgentCompactionTableIdx, TableMgr::autoClearUrgentCompactionTableIdx", "src/table_manifest.cc: TableManifest::getSmallestTableIdx, TableManifest::issueTableNumber", "src/table_compact_condition.cc: TableMgr::chkL0CompactCond, TableMgr::chkLPCompactCond, TableMgr::pickVictimTable", "src/compactor.cc: Compactor::work", "src/jungle.cc: DB::compactIdxUpto", "src/internal_helper.h: Timer"]}
{"id": "C77", "title": "Dying in the first opening of a database", "statement": "If the process dies at any point of the first opening of a directory, the directory can be opened again and then every write is accepted, in that session and in all later ones.", "quantifier": "All points of the first opening of the log section at which the process dies; all sequences of later sessions with writes, syncs, flushes, new log files, closes and deaths.", "why_tests_cant": "The points are between single file operations of one call, and the damage shows only in the sessions behind it; that it never heals needs an induction over all sessions.", "anchors": ["src/log_mgr.cc: LogMgr::init, LogMgr::removeStaleFiles, LogMgr::setSN, LogMgr::setMulti, LogMgr::addNewLogFile, LogMgr::syncInternal, LogMgr::flush, LogMgr::close", "src/log_manifest.cc: LogManifest::create, LogManifest::load, LogManifest::store, LogManifest::addNewLogFile, LogManifest::getMaxLogFileNum, LogManifest::issueLogFileNumber", "src/internal_helper.cc: BackupRestore::restore"]}
{"id": "C78", "title": "Size limits of tables and levels, and writers per job", "statement": "Each level from 2 on has the size limit of the one before it times the ratio configured for it, the last configured ratio if there is none for it, 10 if there is none at all; limits do not shrink from level to level, and a fixed number of levels is enough for every amount of data. A job has at least one writer, and the configured number if there is one.", "quantifier": "All sizes, all vectors of ratios of any length, all levels; all numbers of threads and writers.", "why_tests_cant": "The limits are products over all levels of numbers the user chooses; tests use the default vector of one ratio and two or three levels.", "anchors": ["src/db_config.cc: DBConfig::getMaxTableSize, DBConfig::getMaxParallelWriters, DBConfig::isValid", "src/table_mgr.cc: TableMgr::getLevelSizeLimit", "src/table_compact_condition.cc: TableMgr::chkLPCompactCond", "include/libjungle/db_config.h: DBConfig"]}
{"id": "C79", "title": "Memtables kept in log section mode", "statement": "In log section mode a pass of the reclaimer purges memtables only of log files that are synced, immutable, not removed and not the first one. Without logFileTtl_sec none is purged for its age. With maxKeepingMemtables no more than the excess is purged, the least recently accessed first, and no more than that number stay. Every purged log file can still be read.", "quantifier": "All sets of databases in a process and of log files with all access times and flags, all options, all times at which the pass runs.", "why_tests_cant": "Which files are taken depends on the order of all access times and on the microseconds between the two loops of a pass.", "anchors": ["src/log_manifest.cc: LogManifest::reclaimExpiredLogFiles, LogManifest::isLogReclaimerActive, LogManifest::spawnReclaimer, LogManifest::getLogFileInfo", "src/log_file.cc: LogFile::isExpired, LogFile::getLastAcc, LogFile::purgeMemTable, LogFile::get, LogFile::getSN", "src/log_manifest.h: LogFileInfo", "src/log_mgr.cc: LogMgr::doLogReclaim, LogMgr::isLogStoreMode", "src/log_reclaimer.cc: LogReclaimer::work", "src/db_mgr.cc: DBMgr::addLogReclaimer", "include/libjungle/db_config.h: DBConfig"]}
