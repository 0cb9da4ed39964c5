/-
  What the log section leaves on disk, and how it is loaded again:
  `LogManifest::storeInternal` and `load` (src/log_manifest.cc), `LogFile::load`
  (src/log_file.cc), `MemTable::load` (src/memtable.cc), `LogMgr::init` (src/log_mgr.cc).
-/
import Verif.Log.LogMgr

namespace Jungle

/-- How a log file ends on disk: after a complete item; in the middle of an item, so that the
    loader stops with INCOMPLETE_LOG or UNKNOWN_LOG_FLAG; or with an item whose checksum does not
    match, so that the loader stops with CHECKSUM_ERROR. -/
inductive Tail
  | clean | cut | bad
  deriving DecidableEq, Repr

/-- A log file on disk: its number, the complete items after its header, and how it ends.  The
    header is written when the file is created (src/log_file.cc:158-170); a file without any
    byte counts as missing (src/log_file.cc:226-231). -/
structure DFile (K : Type) where
  num : Nat
  items : List (DItem K)
  tail : Tail
  deriving DecidableEq, Repr

/-- An entry of the log manifest on disk (src/log_manifest.cc:514-543). -/
structure PEntry where
  num : Nat
  min : Nat
  flushed : Nat
  synced : Nat
  deriving DecidableEq, Repr

/-- The contents of the log manifest on disk (src/log_manifest.cc:489-644); `Verif/Codec/LogMani`
    relates them to bytes. -/
structure PMani where
  max : Nat
  lastFlushed : Nat
  lastSynced : Nat
  entries : List PEntry
  deriving DecidableEq, Repr

/-- The records among the items of a log file, in file order. -/
def dataOf {K : Type} : List (DItem K) → List (Rec K)
  | [] => []
  | .data r :: is => r :: dataOf is
  | _ :: is => dataOf is

namespace MemTable
variable {K : Type} [LinearOrder K]

/-- One step of `MemTable::load`: `loadRecord` (src/memtable.cc:768-890), `loadFlushMarker`
    (892-922) and `loadCheckpoint` (924-962).  A loaded record goes to the sequence index and,
    unless it is a command, to the key index; `minSeqNum` is not touched. -/
def loadItem (m : MemTable K) : DItem K → MemTable K
  | .data r => if r.isCmd then addToBySeqIndex m r else addToByKeyIndex (addToBySeqIndex m r) r
  | .flushMarker _ => m
  | .checkpoint c =>
    if m.checkpoints.getLast? = some c then m else { m with checkpoints := m.checkpoints ++ [c] }

/-- `MemTable::load` (src/memtable.cc:964-1094). -/
def load (items : List (DItem K)) (minSeq flushedSeq syncedSeq : Nat) : MemTable K :=
  let m0 : MemTable K :=
    { startSeqNum := minSeq, minSeqNum := minSeq, flushedSeqNum := flushedSeq
      maxSeqNum := syncedSeq, seqNumAlloc := syncedSeq }
  let m := items.foldl loadItem m0
  match (dataOf items).getLast? with
  | some r => { m with maxSeqNum := r.seq, seqNumAlloc := r.seq, syncedSeqNum := r.seq }
  | none => m

end MemTable

namespace LogFile
variable {K : Type} [LinearOrder K]

/-- `LogFile::load` and `loadMemTable` (src/log_file.cc:180-259); `none` is FILE_NOT_EXIST (also
    for an empty file) or CHECKSUM_ERROR.  After any other error the memtable keeps what was
    loaded so far and the file stays open.  Not modelled: the log-store mode, which loads lazily. -/
def load (disk : List (DFile K)) (num minSeq flushedSeq syncedSeq : Nat) : Option (LogFile K) :=
  match disk.find? (fun d => d.num == num) with
  | none => none
  | some d =>
    if d.tail = .bad then none
    else
      let f : LogFile K :=
        { num := num, startSeq := minSeq, mem := MemTable.load d.items minSeq flushedSeq syncedSeq
          immutable := true, fOpen := true, integrity := .unknown
          disk := d.items, torn := decide (d.tail ≠ .clean) }
      some (if d.tail = .clean then f.maybeClose else f)

end LogFile

/-- The variables of the loop in `LogManifest::load` (src/log_manifest.cc:284-451). -/
structure LoadSt (K : Type) where
  files : List (LogFile K)
  maxNum : Nat
  lastFlushed : Nat
  lastSynced : Nat
  /-- `last_synced_seq` -/
  lastSeq : Nat
  /-- `first_file_read` -/
  firstRead : Bool

namespace LogMgr
variable {K : Type} [LinearOrder K]

/-- The body of the loop in `LogManifest::load`, lines 349-451.  Not modelled: the checks of the
    log-only mode (lines 306-347). -/
def loadLoop (disk : List (DFile K)) : List PEntry → LoadSt K → LoadSt K
  | [], s => s
  | e :: rest, s =>
    let lastSeq := if valid e.synced then e.synced else s.lastSeq
    let minSeq := if !valid e.min && valid lastSeq then lastSeq + 1 else e.min
    let syncedSeq := if !valid e.synced && valid lastSeq then lastSeq else e.synced
    if valid s.lastFlushed && decide (e.num < s.lastFlushed) then
      loadLoop disk rest { s with lastSeq := lastSeq }
    else
      match LogFile.load disk e.num minSeq e.flushed syncedSeq with
      | some f =>
        loadLoop disk rest
          { s with
            files := s.files ++ [f]
            lastSeq := lastSeq
            firstRead := true
            lastSynced := if !valid s.lastSynced || decide (s.lastSynced < e.num) then e.num
                          else s.lastSynced }
      | none =>
        if s.firstRead = false ∧ rest ≠ [] then
          loadLoop disk rest { s with lastSeq := lastSeq, lastFlushed := NIL, lastSynced := NIL }
        else if s.files ≠ [] then
          if e.num ≠ 0 then { s with maxNum := e.num - 1, lastSynced := e.num - 1 } else s
        else
          { s with
            files := [LogFile.create s.maxNum 0 minSeq]
            firstRead := true
            lastFlushed := NIL
            lastSynced := s.maxNum }

/-- `LogMgr::init` on an existing manifest (src/log_mgr.cc:62-202): load the listed files; if none
    is left, start with an empty file 0 (the maximal number is not changed). -/
def recover (cfg : Cfg) (m : PMani) (disk : List (DFile K)) : LogMgr K :=
  let s := loadLoop disk m.entries
    { files := [], maxNum := m.max, lastFlushed := m.lastFlushed, lastSynced := m.lastSynced
      lastSeq := NIL, firstRead := false }
  { cfg := cfg
    files := if s.files = [] then [LogFile.create 0 0 1] else s.files
    maxNum := s.maxNum
    lastFlushed := s.lastFlushed
    lastSynced := s.lastSynced }

/-- What `LogManifest::storeInternal` writes (src/log_manifest.cc:489-644). -/
def persist (l : LogMgr K) : PMani :=
  { max := l.maxNum, lastFlushed := l.lastFlushed, lastSynced := l.lastSynced
    entries := l.files.map (fun f =>
      { num := f.num, min := f.mem.minSeqNum, flushed := f.mem.flushedSeqNum
        synced := f.mem.syncedSeqNum }) }

end LogMgr

/-- A log file as it is on disk while nothing is being written to it. -/
def LogFile.onDisk {K : Type} (f : LogFile K) : DFile K :=
  { num := f.num, items := f.disk, tail := if f.torn then .cut else .clean }

variable {K : Type} [LinearOrder K]

/-- The manifest written when a new log file is added (`LogMgr::addNewLogFile`,
    src/log_mgr.cc:489-550): before the record is stored, without fsync. -/
def LogMgr.rotated (l : LogMgr K) : PMani :=
  match l.file? l.maxNum with
  | some f => (l.addNewLogFile f).1.persist
  | none => l.persist

/-- Where a sync starts (src/log_mgr.cc:1231-1243). -/
def LogMgr.syncFrom (l : LogMgr K) : Nat := if l.lastSynced ≠ NIL then l.lastSynced else l.minNum

/-- What a sync does to one file (src/log_mgr.cc:1245-1292). -/
def LogMgr.syncOne (l : LogMgr K) (f : LogFile K) : LogFile K :=
  if l.syncFrom ≤ f.num ∧ f.num ≤ l.maxNum then (LogMgr.syncFile l.barrier l.maxNum f).1 else f

/-- A log file to which nothing is being written: it is found as it was written; one that has only
    its header may also be lost, because creating a file does not sync it. -/
def Survives (f : LogFile K) (v : Option (DFile K)) : Prop :=
  v = some f.onDisk ∨ (v = none ∧ f.disk = [])

/-- Every checkpoint marker in a log file follows the record it names (`MemTable::flush`,
    src/memtable.cc:1236-1460); `o` is the number of the record before the items. -/
def marked : Option Nat → List (DItem K) → Bool
  | _, [] => true
  | _, .data r :: L => marked (some r.seq) L
  | o, .flushMarker _ :: L => marked o L
  | o, .checkpoint c :: L => decide (o = some c) && marked o L

/-- The file holds on disk what was synced: all its records up to the synced number, the last of
    them with that number.  Every call but a flush of records that are not synced keeps this
    (`Session.preach` in Verif/DB/SessionLemmas.lean); after such a flush the synced number names records
    that were never written to the log file (src/log_mgr.cc:1513-1524). -/
def LogFile.Complete (f : LogFile K) : Prop :=
  marked none f.disk = true ∧ (f.mem.syncedSeqNum ≠ NIL →
    dataOf f.disk = f.mem.bySeq.filter (fun r => decide (r.seq ≤ f.mem.syncedSeqNum)) ∧
    ∃ r ∈ f.mem.bySeq, r.seq = f.mem.syncedSeqNum)

end Jungle
