/-
  Model of `LogMgr::rollback` (src/log_mgr.cc:226-331) and `LogFile::truncate`
  (src/log_file.cc:261-324).
-/
import Verif.Log.Crash

namespace Jungle

/-- `MemTable::findOffsetOfSeq` (src/memtable.cc:1096-1233) followed by `ftruncate`: the items up
    to and including the last record whose number is not above `n`; `none` is offset 0 (no such
    record).  Markers behind that record are cut off. -/
def cutAfter {K : Type} (n : Nat) : List (DItem K) → Option (List (DItem K))
  | [] => none
  | i :: is =>
    match cutAfter n is with
    | some c => some (i :: c)
    | none =>
      match i with
      | .data r => if r.seq ≤ n then some [i] else none
      | _ => none

namespace LogFile
variable {K : Type} [LinearOrder K]

/-- `LogFile::openFHandle` (src/log_file.cc:89-95) if the file is closed. -/
def opened (f : LogFile K) : LogFile K :=
  if f.fOpen then f else { f with fOpen := true, integrity := .unknown }

/-- `LogFile::truncate` (src/log_file.cc:261-324).  The counters are set before the offset is
    looked at (295-302).  A file with a torn tail makes `findOffsetOfSeq` fail, and the offset
    stays 0.  Not modelled: I/O errors; a file of size 0 (the header is written on creation). -/
def truncate (f : LogFile K) (n : Nat) : Status × LogFile K :=
  let f1 := { f.opened with mem := { f.opened.mem with maxSeqNum := n, syncedSeqNum := n, seqNumAlloc := n } }
  match (if f.torn then none else cutAfter n f.disk) with
  | none => (.seqnumNotFound, f1.maybeClose)
  | some d => (.ok, ({ f1 with disk := d } : LogFile K).maybeClose)

/-- `purgeMemTable` followed by `loadMemTable` (src/log_file.cc:532-568,211-259). -/
def reload (f : LogFile K) : LogFile K :=
  ({ f with
      fOpen := true
      mem := MemTable.load f.disk f.mem.minSeqNum f.mem.flushedSeqNum f.mem.syncedSeqNum } : LogFile K).maybeClose

end LogFile

namespace LogMgr
variable {K : Type} [LinearOrder K]

/-- `LogMgr::rollback` (src/log_mgr.cc:226-331), executed while no sync, flush or reclaim runs
    (the semaphores it takes exclude them).  The third component is the number of the file it
    truncated: this file is marked as evicted (327-328), so its memtable is deleted when the
    caller lets go of it. -/
def rollbackCore (l : LogMgr K) (n : Nat) : Status × LogMgr K × Option Nat :=
  if l.cfg.readOnly then (.writeViolation, l, none)
  else
    match l.sync with
    | (.ok, l1) =>
      match l1.fileBySeq n with
      | none => (.logFileNotFound, l1, none)
      | some f =>
        match f.truncate n with
        | (.ok, f1) =>
          (.ok, { l1 with
            files := l1.files.filter (fun g => decide (g.num < f.num)) ++ [{ f1 with immutable := true }]
            maxNum := f.num
            lastSynced := f.num }, some f.num)
        | (s, f1) => (s, l1.setFile f1, none)
    | (s, l1) => (s, l1, none)

/-- `rollback` in log-store mode (`logFileTtl_sec` not 0): the next `grab` of the evicted file
    loads its memtable again (src/log_manifest.h:77-109, `isLogReclaimerActive`,
    src/log_manifest.cc:201-203).  Simplification: it is loaded at once. -/
def rollback (l : LogMgr K) (n : Nat) : Status × LogMgr K :=
  match l.rollbackCore n with
  | (s, l1, none) => (s, l1)
  | (s, l1, some num) =>
    match l1.file? num with
    | none => (s, l1)
    | some f => (s, l1.setFile f.reload)

end LogMgr
end Jungle
