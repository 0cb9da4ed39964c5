/-
  Model of src/log_file.cc, src/log_manifest.cc (the in-memory part) and src/log_mgr.cc:
  the log section of a DB.
-/
import Verif.Log.MemTable

namespace Jungle

/-- One item of a log file on disk (src/memtable.cc:1236-1483: records, flush markers,
    checkpoint markers).  `Verif/Codec` relates items to bytes. -/
inductive DItem (K : Type)
  | data (r : Rec K)
  | flushMarker (seq : Nat)
  | checkpoint (seq : Nat)
  deriving DecidableEq, Repr

/-- `LogFile::IntegrityTypes` (src/log_file.h). -/
inductive Integrity
  | unknown | valid | corrupted
  deriving DecidableEq, Repr

/-- `LogFile` together with its `LogFileInfo` (src/log_file.h, src/log_manifest.h:36-233).
    `disk`: items written to the file; `torn`: the file ends with bytes that do not form
    an item (after a crash).  `fOpen`: `fHandle` is not null.
    Simplification: the memtable is always in memory (no eviction; see `Verif/Reclaim`). -/
structure LogFile (K : Type) where
  num : Nat
  startSeq : Nat
  mem : MemTable K
  immutable : Bool := false
  coldChk : Bool := false
  fOpen : Bool := true
  integrity : Integrity := .valid
  disk : List (DItem K) := []
  torn : Bool := false
  deriving DecidableEq, Repr

namespace LogFile
variable {K : Type} [LinearOrder K]

/-- `LogFile::create` (src/log_file.cc:129-178) plus `LogManifest::addNewLogFile`
    (src/log_manifest.cc:810-824). -/
def create (num memStart infoStart : Nat) : LogFile K :=
  { num := num, startSeq := infoStart, mem := MemTable.init memStart }

/-- `LogFile::isSynced` (src/log_file.cc:56-68). -/
def isSynced (f : LogFile K) : Bool :=
  if f.coldChk then false
  else !(valid f.mem.maxSeqNum &&
         (!valid f.mem.syncedSeqNum || decide (f.mem.syncedSeqNum < f.mem.maxSeqNum)))

/-- `LogFile::okToCloseFHandle` (src/log_file.cc:70-72). -/
def okToClose (f : LogFile K) : Bool := f.immutable && f.isSynced

/-- `LogFile::closeFHandle` if allowed (src/log_file.cc:97-111). -/
def maybeClose (f : LogFile K) : LogFile K :=
  if f.okToClose then { f with fOpen := false, integrity := .unknown } else f

/-- `LogFile::isValidToWrite` (src/log_file.cc:774-787).  `sizeExceeded` stands for the two
    byte-size conditions. -/
def isValidToWrite (cfg : Cfg) (sizeExceeded : Bool) (f : LogFile K) : Bool :=
  !(f.immutable || sizeExceeded || decide (cfg.maxEntries ≤ f.mem.bySeq.length))

/-- `LogFile::setSN` (src/log_file.cc:331-356). -/
def setSN (cfg : Cfg) (f : LogFile K) (r : Rec K) : Status × LogFile K :=
  let overwrite := valid r.seq && cfg.allowOverwrite && decide (r.seq ≤ f.mem.maxSeqNum)
  let res := f.mem.putNewRecord cfg r
  let m := res.2
  let m1 := if overwrite && valid m.flushedSeqNum && decide (r.seq ≤ m.flushedSeqNum)
            then { m with flushedSeqNum := r.seq - 1 } else m
  let m2 := if overwrite && valid m1.syncedSeqNum && decide (r.seq ≤ m1.syncedSeqNum)
            then { m1 with syncedSeqNum := r.seq - 1 } else m1
  (res.1, { f with mem := m2 })

/-- `LogFile::setSyncedSeqNum` (src/log_file.cc:627-647). -/
def setSyncedSeqNum (f : LogFile K) (seq : Nat) : LogFile K :=
  if f.mem.maxSeqNum = NIL then f
  else if seq > f.mem.maxSeqNum then
    { f with mem := { f.mem with syncedSeqNum := f.mem.maxSeqNum } }
  else { f with mem := { f.mem with syncedSeqNum := seq } }

/-- `LogFile::setFlushedSeqNum` (src/log_file.cc:649-669). -/
def setFlushedSeqNum (f : LogFile K) (seq : Nat) : LogFile K :=
  if f.mem.syncedSeqNum = NIL then f
  else if seq > f.mem.syncedSeqNum then
    { f with mem := { f.mem with flushedSeqNum := f.mem.syncedSeqNum } }
  else { f with mem := { f.mem with flushedSeqNum := seq } }

/-- The records `MemTable::flush` writes (src/memtable.cc:1236-1460): from the last synced
    number plus one (or the minimum) to `min(max, upto)`, each followed by its checkpoint
    markers; before them the marker of a checkpoint taken at the synced position.
    Compression and page buffering do not change the item sequence (the position of the
    checkpoint-only marker relative to buffered records is fixed to "before"). -/
def flushItems (m : MemTable K) (upto : Nat) : List (DItem K) :=
  let last := if valid upto ∧ upto < m.maxSeqNum then upto else m.maxSeqNum
  let ii := if m.syncedSeqNum ≠ NIL then m.syncedSeqNum + 1 else m.minSeqNum
  let recs := (m.bySeq.dropWhile (fun r => decide (r.seq < ii))).takeWhile
                (fun r => decide (r.seq ≤ last))
  let only := if m.checkpointsDirty ∧ valid m.syncedSeqNum ∧
                 m.checkpoints.getLast? = some m.syncedSeqNum
              then [DItem.checkpoint m.syncedSeqNum] else []
  only ++ recs.flatMap (fun r =>
    DItem.data r :: (m.checkpoints.filter (fun c => c == r.seq)).map DItem.checkpoint)

/-- `LogFile::flushMemTable` (src/log_file.cc:404-530).  The second component is the value of
    `flushed_seq_out` afterwards (`NIL` if it was left untouched).  The return status is OK
    in every modelled case; I/O errors are not modelled.  The integrity check by
    `MemTable::findOffsetOfSeq` succeeds exactly if the file has no torn tail. -/
def flushMemTable (f : LogFile K) (upto : Nat) : LogFile K × Nat :=
  if f.immutable ∧ f.fOpen = false ∧ f.isSynced then (f, NIL)
  else
    let f1 := if f.fOpen then f else { f with fOpen := true, integrity := .unknown }
    let f2 := if f1.integrity = .unknown
              then { f1 with integrity := if f1.torn then .corrupted else .valid } else f1
    if f2.integrity = .corrupted then (f2, NIL)
    else if f2.mem.minSeqNum = NIL then
      (maybeClose { f2 with disk := f2.disk ++ [.flushMarker f2.mem.syncedSeqNum] }, NIL)
    else
      let last := if valid upto ∧ upto < f2.mem.maxSeqNum then upto else f2.mem.maxSeqNum
      (maybeClose { f2 with
          disk := f2.disk ++ flushItems f2.mem upto ++ [.flushMarker f2.mem.syncedSeqNum]
          mem := { f2.mem with checkpointsDirty := false } }, last)

end LogFile

/-- The log section: `LogMgr` and its `LogManifest` (src/log_mgr.h, src/log_manifest.h).
    `files`: the list `logFiles` in ascending number order; removed files are not in it.
    `barrier`: `visibleSeqBarrier`; 0 means that no batch is running. -/
structure LogMgr (K : Type) where
  cfg : Cfg := {}
  files : List (LogFile K) := []
  maxNum : Nat := NIL
  lastFlushed : Nat := NIL
  lastSynced : Nat := NIL
  barrier : Nat := 0
  deriving DecidableEq, Repr

namespace LogMgr
variable {K : Type} [LinearOrder K]

/-- First open of a new DB (`LogMgr::init`, src/log_mgr.cc:121-165, with `startSeqnum = 1`):
    log file 0 with memtable start 0 and file-index start 1. -/
def init (cfg : Cfg) : LogMgr K :=
  { cfg := cfg, files := [LogFile.create 0 0 1], maxNum := 0 }

/-- `LogManifest::getLogFileInfoP` (src/log_manifest.cc:677-700,801-808). -/
def file? (l : LogMgr K) (num : Nat) : Option (LogFile K) := l.files.find? (fun f => f.num == num)

/-- Replace the file with the same number. -/
def setFile (l : LogMgr K) (f : LogFile K) : LogMgr K :=
  { l with files := l.files.map (fun g => if g.num == f.num then f else g) }

/-- `LogManifest::getMinLogFileNum` (src/log_manifest.cc:875-885). -/
def minNum (l : LogMgr K) : Nat := match l.files with
  | [] => NIL
  | f :: _ => f.num

/-- `LogManifest::getLastFlushedLog` (src/log_manifest.cc:887-898); `NIL` means error. -/
def getLastFlushedLog (l : LogMgr K) : Nat :=
  if l.lastFlushed = NIL then l.minNum else l.lastFlushed

/-- The entry `skiplist_find_smaller_or_equal` finds in `logFilesBySeq`: the greatest start
    number not above `seq`; among equal ones the later file. -/
def bySeqEntry (l : LogMgr K) (seq : Nat) : Option (LogFile K) :=
  l.files.foldl (fun best f =>
    if f.startSeq ≤ seq then
      match best with
      | none => some f
      | some b => if b.startSeq ≤ f.startSeq then some f else some b
    else best) none

/-- `LogManifest::getLogFileInfoBySeq` (src/log_manifest.cc:741-799). -/
def fileBySeq (l : LogMgr K) (seq : Nat) (allowNonExact : Bool := false) : Option (LogFile K) :=
  match l.bySeqEntry seq with
  | none => none
  | some f =>
    if valid f.mem.minSeqNum ∧ f.mem.minSeqNum > seq then none
    else if f.mem.maxSeqNum < seq then
      let isLast := !(l.files.any (fun g => decide (f.startSeq < g.startSeq)))
      if isLast || !allowNonExact then none else some f
    else some f

/-- `LogMgr::addNewLogFile` (src/log_mgr.cc:489-550), sequential: a new empty file whose
    numbers start after the maximum of the current one. -/
def addNewLogFile (l : LogMgr K) (cur : LogFile K) : LogMgr K × LogFile K :=
  let start := inc64 cur.mem.maxSeqNum
  let f : LogFile K := LogFile.create (l.maxNum + 1) start start
  ({ l with files := l.files ++ [f], maxNum := l.maxNum + 1 }, f)

/-- `LogMgr::setSN` (src/log_mgr.cc:599-682).  `sizeExceeded` is the outcome of the size
    test in `isValidToWrite`. -/
def setSN (l : LogMgr K) (r : Rec K) (sizeExceeded : Bool := false) : Status × LogMgr K :=
  if l.cfg.readOnly then (.writeViolation, l)
  else if r.seq = 0 then (.invalidSeqnum, l)
  else if l.maxNum = NIL then (.notInitialized, l)
  else
    let target : Option (LogFile K) :=
      if valid r.seq && l.cfg.allowOverwrite then l.fileBySeq r.seq true else none
    let overwrite := target.isSome
    match target.orElse (fun _ => l.file? l.maxNum) with
    | none => (.undefinedBehaviour, l)      -- the C++ loop does not terminate
    | some f =>
      let lf := if !f.isValidToWrite l.cfg sizeExceeded && !(l.cfg.allowOverwrite && overwrite)
                then l.addNewLogFile f else (l, f)
      let res := lf.2.setSN l.cfg r
      let l2 := lf.1.setFile res.2
      if res.1 ≠ .ok then (res.1, l2)
      else if res.2.immutable then
        let l3 := if l2.lastSynced ≠ NIL ∧ f.num < l2.lastSynced
                  then { l2 with lastSynced := f.num } else l2
        let l4 := if l3.getLastFlushedLog ≠ NIL ∧ f.num < l3.getLastFlushedLog
                  then { l3 with lastFlushed := f.num } else l3
        (.ok, l4)
      else (.ok, l2)

/-- `LogMgr::getMaxSeqNum` (src/log_mgr.cc:1836-1871): from the newest file backwards while
    the numbers are consecutive; `none` is LOG_NOT_EXIST. -/
def getMaxSeqNum (l : LogMgr K) : Option Nat :=
  if l.barrier ≠ 0 then some l.barrier
  else go l.maxNum (l.files.length)
where
  go (num fuel : Nat) : Option Nat :=
    match fuel with
    | 0 => none
    | fuel + 1 =>
      match l.file? num with
      | none => none
      | some f => if f.mem.maxSeqNum ≠ NIL then some f.mem.maxSeqNum
                  else if num = 0 then none else go (num - 1) fuel

/-- `LogMgr::checkBatchValidity` (src/log_mgr.cc:762-797). -/
def checkBatchValidity (l : LogMgr K) (batch : List (Rec K)) : Status :=
  match batch with
  | [] => .ok       -- not reached: the caller rejects an empty batch
  | first :: _ =>
    if valid first.seq ∧ l.cfg.allowOverwrite ∧ (l.fileBySeq first.seq).isSome then .invalidSeqnum
    else if !valid first.seq then
      if batch.any (fun r => valid r.seq) then .invalidSeqnum else .ok
    else go (l.getMaxSeqNum.getD 0) batch
where
  go (prev : Nat) : List (Rec K) → Status
    | [] => .ok
    | r :: rs => if !valid r.seq || decide (r.seq ≤ prev) then .invalidSeqnum else go r.seq rs

/-- `LogMgr::setMultiInternal` (src/log_mgr.cc:799-831): every record goes to the newest
    file, without a check that the file may be written. -/
def setMultiInternal (l : LogMgr K) (batch : List (Rec K)) : Status × LogMgr K :=
  match batch with
  | [] => (.ok, l)
  | r :: rs =>
    match l.file? l.maxNum with
    | none => (.undefinedBehaviour, l)
    | some f =>
      let res := f.setSN l.cfg r
      let l2 := l.setFile res.2
      if res.1 ≠ .ok then (res.1, l2) else setMultiInternal l2 rs

/-- `LogMgr::setMulti` (src/log_mgr.cc:692-724), executed without interruption. -/
def setMulti (l : LogMgr K) (batch : List (Rec K)) : Status × LogMgr K :=
  if l.cfg.readOnly then (.writeViolation, l)
  else if batch = [] then (.emptyBatch, l)
  else if l.maxNum = NIL then (.notInitialized, l)
  else
    let lb := { l with barrier := (l.getMaxSeqNum).getD 0 }
    match lb.checkBatchValidity batch with
    | .ok =>
      let res := lb.setMultiInternal batch
      (res.1, { res.2 with barrier := 0 })
    | s => (s, { lb with barrier := 0 })

/-- `LogManifest::getLogFileInfoRange` (src/log_manifest.cc:713-739): from the first file
    not below `s` up to and including the first one not below `e`. -/
def rangeUpto (e : Nat) : List (LogFile K) → List (LogFile K)
  | [] => []
  | f :: fs => if e ≤ f.num then [f] else f :: rangeUpto e fs

def fileRange (l : LogMgr K) (s e : Nat) : List (LogFile K) :=
  rangeUpto e (l.files.dropWhile (fun f => decide (f.num < s)))

/-- One step of the search loop in `LogMgr::get` (src/log_mgr.cc:905-926). -/
def getFrom (barrier chk : Nat) (useMax : Bool) (allowFlushed : Bool) (key : K) :
    List (LogFile K) → Option (Rec K)
  | [] => none
  | f :: fs =>
    let c := if useMax then
               (if barrier ≠ 0 then min f.mem.maxSeqNum barrier else f.mem.maxSeqNum)
             else chk
    match f.mem.getRecordByKey c key allowFlushed true with
    | (.ok, some r) => some r
    | _ => getFrom barrier chk useMax allowFlushed key fs

/-- `LogMgr::get` on the live handle (src/log_mgr.cc:859-938, `chk` not given). -/
def get (l : LogMgr K) (key : K) : Status × Option (Rec K) :=
  let minLog := l.getLastFlushedLog
  if minLog = NIL ∨ l.maxNum = NIL then (.notInitialized, none)
  else
    let found :=
      if l.cfg.logSectionOnly then
        getFrom 0 NIL false false key
          ((l.files.filter (fun f => decide (minLog ≤ f.num ∧ f.num ≤ l.maxNum))).reverse)
      else getFrom l.barrier NIL true false key (l.fileRange minLog l.maxNum).reverse
    match found with
    | some r => (.ok, some r)
    | none => (.keyNotFound, none)

/-- `LogMgr::get` on a snapshot (src/log_mgr.cc:870-883): `lst` is the list of log files
    grabbed when the snapshot was opened, with their current contents. -/
def getSnap (chk : Nat) (lst : List (LogFile K)) (key : K) : Status × Option (Rec K) :=
  match getFrom 0 chk false true key lst.reverse with
  | some r => (.ok, some r)
  | none => (.keyNotFound, none)

/-- `LogMgr::getSN` (src/log_mgr.cc:833-857). -/
def getSN (l : LogMgr K) (seq : Nat) : Status × Option (Rec K) :=
  match l.fileBySeq seq with
  | none => (.logFileNotFound, none)
  | some f =>
    if seq > f.mem.maxSeqNum ∨ (l.barrier ≠ 0 ∧ seq > l.barrier) then (.keyNotFound, none)
    else f.mem.findRecordBySeq seq

/-- The body of the loop of `LogMgr::syncInternal` for one file (src/log_mgr.cc:1253-1292). -/
def syncFile (barrier lnTo : Nat) (f : LogFile K) : LogFile K × Nat :=
  let res := f.flushMemTable (if barrier ≠ 0 then barrier else NIL)
  let f1 := (res.1.maybeClose).setSyncedSeqNum res.2
  (if f1.num < lnTo then { f1 with immutable := true } else f1, res.2)

/-- `LogMgr::syncInternal` (src/log_mgr.cc:1216-1310).  The manifest write is modelled in
    `Verif/Log/Crash.lean`. -/
def sync (l : LogMgr K) : Status × LogMgr K :=
  if l.cfg.readOnly then (.writeViolation, l)
  else if l.maxNum = NIL then (.ok, l)
  else
    let lnFrom := if l.lastSynced ≠ NIL then l.lastSynced else l.minNum
    if lnFrom = NIL then (.notInitialized, l)
    else
      let res := l.files.map (fun f =>
        if lnFrom ≤ f.num ∧ f.num ≤ l.maxNum then syncFile l.barrier l.maxNum f else (f, NIL))
      let lastSynced := res.foldl (fun acc fr => if fr.2 ≠ NIL then fr.1.num else acc) lnFrom
      (.ok, { l with files := res.map (·.1), lastSynced := lastSynced })

/-- `FlushOptions` (include/libjungle/jungle.h: FlushOptions). -/
structure FlushOpts where
  purgeOnly : Bool := false
  beyondLastSync : Bool := false
  numFilesLimit : Nat := 0
  deriving DecidableEq, Repr

/-- Going back over files without a usable number (src/log_mgr.cc:1417-1440).  A missing
    file is dereferenced through a null pointer. -/
def rewind (l : LogMgr K) (beyond : Bool) (lnFrom : Nat) : Nat → Nat → Except Status (Nat × Nat)
  | 0, _ => .error .undefinedBehaviour
  | fuel + 1, lnTo =>
    match l.file? lnTo with
    | none => .error .undefinedBehaviour
    | some f =>
      let s := if beyond then f.mem.maxSeqNum else f.mem.syncedSeqNum
      if s = NIL then
        if lnTo > lnFrom then rewind l beyond lnFrom fuel (lnTo - 1) else .error .logNotSynced
      else .ok (s, lnTo)

/-- The last file a flush may touch before the number is looked at
    (src/log_mgr.cc:1391-1410, 64-bit arithmetic); `NIL` if nothing was ever synced. -/
def flushLimit (l : LogMgr K) (o : FlushOpts) : Nat :=
  let lnFrom := l.getLastFlushedLog
  let lnTo0 := if o.beyondLastSync then l.maxNum else l.lastSynced
  if lnTo0 ≠ NIL ∧ o.numFilesLimit ≠ 0 ∧
     (lnTo0 + (NIL + 1) - lnFrom + 1) % (NIL + 1) > o.numFilesLimit
  then lnFrom + o.numFilesLimit - 1 else lnTo0

/-- The number and the last file of a flush: `(seq_num_local, ln_to)`
    (src/log_mgr.cc:1412-1452). -/
def flushTarget (l : LogMgr K) (o : FlushOpts) (seqNum : Nat) : Except Status (Nat × Nat) :=
  let seqL := if l.barrier ≠ 0 ∧ l.barrier < seqNum then l.barrier else seqNum
  if seqL = NIL then
    rewind l o.beyondLastSync l.getLastFlushedLog (l.files.length + 1) (l.flushLimit o)
  else
    -- the barrier-adjusted number is overwritten with the caller's one (line 1446)
    match l.fileBySeq seqNum with
    | none => .ok (seqNum, l.flushLimit o)
    | some f => .ok (seqNum, f.num)

/-- Where a flush starts and ends: `(ln_from, ln_to, seq_num_local)`, or an early return
    (src/log_mgr.cc:1381-1464). -/
def flushRange (l : LogMgr K) (o : FlushOpts) (seqNum : Nat) : Except Status (Nat × Nat × Nat) :=
  if l.flushLimit o = NIL then .error .logNotSynced
  else if l.getLastFlushedLog = NIL then .error .notInitialized
  else
    match l.flushTarget o seqNum with
    | .error s => .error s
    | .ok (s, lnTo) =>
      match l.file? l.getLastFlushedLog with
      | none => .error .undefinedBehaviour
      | some f =>
        if valid f.mem.flushedSeqNum ∧ f.mem.flushedSeqNum ≥ seqNum then .error .alreadyFlushed
        else .ok (l.getLastFlushedLog, lnTo, s)

/-- Collect the records of the files (src/log_mgr.cc:1472-1482).  A file that is not synced
    is skipped with a warning. -/
def gather (seqLocal : Nat) (ignoreSync : Bool) (fs : List (LogFile K)) : List (Rec K) :=
  fs.foldl (fun acc f => (f.mem.getLogsToFlush seqLocal acc ignoreSync).2) []

def gatherCheckpoints (seqLocal : Nat) (fs : List (LogFile K)) : List Nat :=
  fs.flatMap (fun f => f.mem.getCheckpoints seqLocal)

/-- `LogMgr::flush` (src/log_mgr.cc:1361-1593).  `setBatch` is the table manager's function;
    the manifest writes are modelled in `Verif/Log/Crash.lean`. -/
def flush {T : Type} (l : LogMgr K) (o : FlushOpts) (seqNum : Nat) (t : T)
    (setBatch : T → List (Rec K) → List Nat → T) : Status × LogMgr K × T :=
  if seqNum = 0 then (.invalidSeqnum, l, t)
  else match l.flushRange o seqNum with
  | .error s => (s, l, t)
  | .ok (lnFrom, lnTo, s) =>
    let rng := l.files.filter (fun f => decide (lnFrom ≤ f.num ∧ f.num ≤ lnTo))
    let recs := gather s o.beyondLastSync rng
    let t' := if o.purgeOnly = false ∧ recs ≠ [] then setBatch t recs (gatherCheckpoints s rng)
              else t
    let upd := fun f : LogFile K =>
      if o.purgeOnly then (if f.num = lnTo then f.setFlushedSeqNum s else f)
      else if lnFrom ≤ f.num ∧ f.num ≤ lnTo then
        (if o.beyondLastSync then f.setSyncedSeqNum s else f).setFlushedSeqNum s
      else f
    let files1 := l.files.map upd
    let lastSynced := if o.beyondLastSync ∧ lnTo > l.lastSynced then lnTo else l.lastSynced
    -- the files before `ln_to` are removed
    let files2 := files1.filter (fun f => !decide (lnFrom ≤ f.num ∧ f.num < lnTo))
    (.ok, { l with files := files2, lastFlushed := lnTo, lastSynced := lastSynced }, t')

/-- `LogMgr::getLastSyncedSeqNum` (src/log_mgr.cc:1957-1989); `none` is an error. -/
def getLastSyncedSeqNum (l : LogMgr K) : Option Nat :=
  match l.file? l.lastSynced with
  | none => none
  | some f => if f.mem.syncedSeqNum = NIL then none else some f.mem.syncedSeqNum

/-- `LogMgr::getLastFlushedSeqNum` (src/log_mgr.cc:1935-1955); `none` is an error. -/
def getLastFlushedSeqNum (l : LogMgr K) : Option Nat :=
  match l.file? l.getLastFlushedLog with
  | none => none
  | some f => if f.mem.flushedSeqNum = NIL then none else some f.mem.flushedSeqNum

/-- `LogMgr::checkpoint` (src/log_mgr.cc:1755-1776) without its sync. -/
def checkpoint (l : LogMgr K) : LogMgr K × Option Nat :=
  match l.file? l.maxNum with
  | none => (l, none)
  | some f =>
    let res := f.mem.checkpoint
    (l.setFile { f with mem := res.1, coldChk := f.coldChk || f.immutable }, res.2)

/-- `LogMgr::getAvailCheckpoints` (src/log_mgr.cc:1778-1797). -/
def getAvailCheckpoints (l : LogMgr K) : List Nat :=
  (l.files.filter (fun f => decide (l.getLastFlushedLog ≤ f.num ∧ f.num ≤ l.maxNum))).flatMap
    (fun f => f.mem.getCheckpoints NIL)

/-- `LogMgr::openSnapshot` (src/log_mgr.cc:385-450): the numbers of the log files the snapshot
    holds; `none` is an error (the list pointer stays unset). -/
def openSnapshot (l : LogMgr K) (chk lastFlush : Nat) : Option (List Nat) :=
  if chk = 0 ∧ lastFlush = 0 then some []
  else if l.minNum = NIL then none
  else match l.fileBySeq chk with
    | none => none
    | some f => some ((l.files.filter (fun g => decide (g.num ≤ f.num))).map (·.num))

end LogMgr
end Jungle
