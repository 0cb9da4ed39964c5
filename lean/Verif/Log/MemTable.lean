/-
  Model of src/memtable.cc: the in-memory table of one log file.
-/
import Verif.SMap

namespace Jungle

/-- `valid_number` (src/internal_helper.h:280-282). -/
def valid (n : Nat) : Bool := n != NIL

/-- 64-bit increment (wraps, as `uint64_t` does). -/
def inc64 (n : Nat) : Nat := (n + 1) % (NIL + 1)

/-- Default value of `DBConfig` fields that the log layer reads
    (include/libjungle/db_config.h). -/
structure Cfg where
  /-- `DBConfig::readOnly` -/
  readOnly : Bool := false
  /-- `DBConfig::allowOverwriteSeqNum` -/
  allowOverwrite : Bool := false
  /-- `DBConfig::logSectionOnly` -/
  logSectionOnly : Bool := false
  /-- `DBConfig::maxEntriesInLogFile` -/
  maxEntries : Nat := 16384
  /-- `DBConfig::useSequenceIndex` -/
  useSequenceIndex : Bool := true
  deriving DecidableEq, Repr

/-- `SearchOptions` (include/libjungle/jungle.h: SearchOptions::OptValue). -/
inductive SOpt
  | equal | greater | greaterOrEqual | smaller | smallerOrEqual
  deriving DecidableEq, Repr

/-- `SearchOptions::isExactMatchAllowed`. -/
def SOpt.exactAllowed : SOpt → Bool
  | .equal | .greaterOrEqual | .smallerOrEqual => true
  | _ => false

/-- State of one `MemTable` (src/memtable.h:173-270).
    `byKey`: nodes of `idxByKey`, each with its `recList` in push order.
    `bySeq`: records of `idxBySeq` in index order.
    Not modelled: the Bloom filter `bfByKey` (it never rejects a key that is in
    `idxByKey`, see `Verif/Bloom`), `bytesSize`, `increasingOrder`, `staleLogs`
    (memory reclamation only). -/
structure MemTable (K : Type) where
  startSeqNum : Nat := 0
  minSeqNum : Nat := NIL
  flushedSeqNum : Nat := NIL
  syncedSeqNum : Nat := NIL
  maxSeqNum : Nat := NIL
  seqNumAlloc : Nat := NIL
  byKey : SMap K (List (Rec K)) := []
  bySeq : List (Rec K) := []
  checkpoints : List Nat := []
  checkpointsDirty : Bool := false
  deriving DecidableEq, Repr

/-- `RecNode::getLatestRecord` (src/memtable.cc:69-86): scan `recList` from the back,
    stop at the first record not above `upto`, return it unless it is below `from`. -/
def getLatestRecord {K : Type} (recList : List (Rec K)) (seqFrom seqUpto : Nat) :
    Option (Rec K) :=
  match recList.reverse.find? (fun r => !valid seqUpto || decide (r.seq ≤ seqUpto)) with
  | none => none
  | some r => if !valid seqFrom || decide (r.seq ≥ seqFrom) then some r else none

/-- `RecNode::discardRecords` (src/memtable.cc:88-103): the remaining list. -/
def discardRecords {K : Type} (recList : List (Rec K)) (seqBegin : Nat) : List (Rec K) :=
  recList.filter (fun r => decide (r.seq < seqBegin))

namespace MemTable
variable {K : Type} [LinearOrder K]

/-- `MemTable::init` (src/memtable.cc:338-343). -/
def init (start : Nat) : MemTable K := { startSeqNum := start }

/-- `MemTable::assignSeqNum` (src/memtable.cc:345-394), sequential execution (the
    compare-and-swap loops succeed; writers are serialised by `writeMutex`). -/
def assignSeqNum (cfg : Cfg) (m : MemTable K) (seq : Nat) : Status × MemTable K × Nat :=
  if seq = NIL then
    let val := if m.startSeqNum = 0 then 1 else m.startSeqNum
    if m.seqNumAlloc = NIL then
      (.ok, { m with seqNumAlloc := val, minSeqNum := val }, val)
    else
      (.ok, { m with seqNumAlloc := inc64 m.seqNumAlloc }, inc64 m.seqNumAlloc)
  else if m.seqNumAlloc ≠ NIL ∧ seq ≤ m.seqNumAlloc ∧ cfg.allowOverwrite = false then
    (.invalidSeqnum, m, seq)
  else if m.minSeqNum ≠ NIL ∧ seq < m.minSeqNum then
    (.invalidSeqnum, m, seq)
  else
    (.ok, { m with
              seqNumAlloc := seq
              minSeqNum := if m.seqNumAlloc = NIL then seq else m.minSeqNum }, seq)

/-- `MemTable::updateMaxSeqNum` (src/memtable.cc:396-403). -/
def updateMaxSeqNum (m : MemTable K) (seq : Nat) : MemTable K :=
  if m.maxSeqNum < seq ∨ m.maxSeqNum = NIL then { m with maxSeqNum := seq } else m

/-- `MemTable::addToByKeyIndex` (src/memtable.cc:412-442). -/
def addToByKeyIndex (m : MemTable K) (r : Rec K) : MemTable K :=
  { m with byKey := m.byKey.upsert r.key (fun o => (o.getD []) ++ [r]) }

/-- `skiplist_insert` into `idxBySeq`: before the first entry that is not smaller
    (src/skiplist.cc:403-575). -/
def insertBySeq (r : Rec K) : List (Rec K) → List (Rec K)
  | [] => [r]
  | x :: xs => if x.seq < r.seq then x :: insertBySeq r xs else r :: x :: xs

/-- `MemTable::addToBySeqIndex` (src/memtable.cc:444-466). -/
def addToBySeqIndex (m : MemTable K) (r : Rec K) : MemTable K :=
  if valid r.seq ∧ r.seq ≤ m.maxSeqNum ∧ m.bySeq.any (fun x => x.seq == r.seq) then
    { m with bySeq := m.bySeq.map (fun x => if x.seq == r.seq then r else x) }
  else { m with bySeq := insertBySeq r m.bySeq }

/-- The record as stored: a deletion loses its value (src/memtable.cc:471-474). -/
def localRec (r : Rec K) : Rec K := if r.isDel then { r with val := [] } else r

/-- `MemTable::putNewRecord` (src/memtable.cc:468-513).  `r.seq = NIL` means that the
    caller gave no sequence number. -/
def putNewRecord (cfg : Cfg) (m : MemTable K) (r : Rec K) : Status × MemTable K :=
  let rl := localRec r
  match assignSeqNum cfg m rl.seq with
  | (.ok, m1, seq) =>
    let rec' : Rec K := { rl with seq := seq }
    let m2 := addToBySeqIndex m1 rec'
    let m3 := if rec'.isCmd then m2 else addToByKeyIndex m2 rec'
    (.ok, updateMaxSeqNum m3 seq)
  | (s, _, _) => (s, m)

/-- `MemTable::findRecordBySeq` (src/memtable.cc:564-584). -/
def findRecordBySeq (m : MemTable K) (seq : Nat) : Status × Option (Rec K) :=
  if m.flushedSeqNum ≠ NIL ∧ seq ≤ m.flushedSeqNum then (.alreadyPurged, none)
  else match m.bySeq.find? (fun r => r.seq == seq) with
    | some r => (.ok, some r)
    | none => (.seqnumNotFound, none)

/-- The node at which `MemTable::getRecordByKeyInternal` looks
    (src/memtable.cc:618-662).  The skip over an exact match is written with
    `skiplist_next` / `skiplist_prev`; keys are unique, so one step is enough. -/
def cursorFor (m : MemTable K) (key : K) : SOpt → Option (K × List (Rec K))
  | .equal => (m.byKey.find? key).map (fun l => (key, l))
  | .greaterOrEqual => m.byKey.findGE key
  | .greater => m.byKey.findGT key
  | .smallerOrEqual => m.byKey.findLE key
  | .smaller => m.byKey.findLT key

/-- `MemTable::getRecordByKeyInternal` (src/memtable.cc:618-685), and with
    `opt = .equal` also `getRecordByKey` (586-602). -/
def getRecordByKey (m : MemTable K) (chk : Nat) (key : K) (allowFlushed allowTombstone : Bool)
    (opt : SOpt := .equal) : Status × Option (Rec K) :=
  match cursorFor m key opt with
  | none => (.keyNotFound, none)
  | some (_, recList) =>
    match getLatestRecord recList NIL chk with
    | none => (.keyNotFound, none)
    | some r =>
      if valid m.flushedSeqNum ∧ r.seq ≤ m.flushedSeqNum ∧ allowFlushed = false then
        (.keyNotFound, none)
      else if allowTombstone = false ∧ r.isDel then (.keyNotFound, none)
      else (.ok, some r)

/-- `MemTable::checkpoint` (src/memtable.cc:1485-1501).  `none` for the output means
    that the caller's variable is left untouched. -/
def checkpoint (m : MemTable K) : MemTable K × Option Nat :=
  if m.maxSeqNum = NIL then (m, none)
  else if m.checkpoints.getLast? = some m.maxSeqNum then (m, some m.maxSeqNum)
  else ({ m with checkpoints := m.checkpoints ++ [m.maxSeqNum], checkpointsDirty := true },
        some m.maxSeqNum)

/-- `MemTable::getLogsToFlush` (src/memtable.cc:1503-1559): first drop from the end of
    the collected list the records with numbers from `ii` on, then append this table's
    records from `ii` to `seqNum`. -/
def getLogsToFlush (m : MemTable K) (seqNum : Nat) (listOut : List (Rec K))
    (ignoreSync : Bool) : Status × List (Rec K) :=
  if ignoreSync = false ∧ m.syncedSeqNum = NIL then (.logNotSynced, listOut)
  else if m.flushedSeqNum ≠ NIL ∧ seqNum ≤ m.flushedSeqNum then (.alreadyPurged, listOut)
  else
    let ii := if m.flushedSeqNum ≠ NIL then m.flushedSeqNum + 1 else m.minSeqNum
    let kept := (listOut.reverse.dropWhile (fun r => decide (r.seq ≥ ii))).reverse
    let mine := (m.bySeq.dropWhile (fun r => decide (r.seq < ii))).takeWhile
                  (fun r => decide (r.seq ≤ seqNum))
    (.ok, kept ++ mine)

/-- `MemTable::getCheckpoints` (src/memtable.cc:1561-1575). -/
def getCheckpoints (m : MemTable K) (seqNum : Nat) : List Nat :=
  m.checkpoints.filter (fun c =>
    !(valid m.flushedSeqNum && decide (c ≤ m.flushedSeqNum)) &&
    (decide (c ≤ seqNum) || !valid seqNum))

/-- `MemTable::discardDirty` (src/memtable.cc:515-562): the records from `seqBegin` on
    leave the sequence index, and every node of one of their keys loses its records
    from `seqBegin` on.  The sequence counters are not changed. -/
def discardDirty (m : MemTable K) (seqBegin : Nat) : MemTable K :=
  let gone := m.bySeq.filter (fun r => decide (r.seq ≥ seqBegin))
  { m with
    byKey := m.byKey.map (fun e =>
      if gone.any (fun r => decide (r.key = e.1)) then (e.1, discardRecords e.2 seqBegin) else e)
    bySeq := m.bySeq.filter (fun r => decide (r.seq < seqBegin)) }

end MemTable
end Jungle
