/-
  The log section of a database without tables (`logSectionOnly`): the checks when it is opened
  again (src/log_manifest.cc:306-347) and the eviction of memtables (src/log_manifest.cc:35-150).
-/
import Verif.Log.Rollback

namespace Jungle

/-- Every number follows the one before it. -/
def Spec.Consecutive {K : Type} (h : List (Rec K)) : Prop :=
  ∀ L a b R, h = L ++ a :: b :: R → b.seq = a.seq + 1

/-- The checks of `LogManifest::load` for a database without tables and with
    `truncateInconsecutiveLogs`, the default (src/log_manifest.cc:306-347); `last` is
    `ii + 1 == num_log_files`, `lastSeq` is `last_synced_seq`. -/
def PEntry.invalid (last : Bool) (lastSeq : Nat) (e : PEntry) : Bool :=
  (valid e.min &&
    ((valid e.synced && decide (e.min > e.synced)) ||
     (valid lastSeq && decide (e.min ≠ lastSeq + 1)))) ||
  (last && !valid e.min)

namespace LogMgr
variable {K : Type} [LinearOrder K]

/-- The loop in `LogManifest::load` for a database without tables (src/log_manifest.cc:294-451);
    `trunc` is `truncateInconsecutiveLogs`.  The first file that fails the checks ends the loop
    (351-363).  Simplification: with `logFileTtl_sec` not 0 the memtables are loaded when they are
    first needed (src/log_file.cc:203-207); here they are loaded at once. -/
def loadOnly (trunc : Bool) (disk : List (DFile K)) : List PEntry → LoadSt K → LoadSt K
  | [], s => s
  | e :: rest, s =>
    if trunc && e.invalid rest.isEmpty s.lastSeq then
      if e.num ≠ 0 then { s with maxNum := e.num - 1, lastSynced := e.num - 1 } else s
    else
      let lastSeq := if valid e.synced then e.synced else s.lastSeq
      let minSeq := if !valid e.min && valid lastSeq then lastSeq + 1 else e.min
      let syncedSeq := if !valid e.synced && valid lastSeq then lastSeq else e.synced
      if valid s.lastFlushed && decide (e.num < s.lastFlushed) then
        loadOnly trunc disk rest { s with lastSeq := lastSeq }
      else
        match LogFile.load disk e.num minSeq e.flushed syncedSeq with
        | some f =>
          loadOnly trunc disk rest
            { s with
              files := s.files ++ [f]
              lastSeq := lastSeq
              firstRead := true
              lastSynced := if !valid s.lastSynced || decide (s.lastSynced < e.num) then e.num
                            else s.lastSynced }
        | none =>
          if s.firstRead = false ∧ rest ≠ [] then
            loadOnly trunc disk rest { s with lastSeq := lastSeq, lastFlushed := NIL, lastSynced := NIL }
          else if s.files ≠ [] then
            if e.num ≠ 0 then { s with maxNum := e.num - 1, lastSynced := e.num - 1 } else s
          else
            { s with
              files := [LogFile.create s.maxNum 0 minSeq]
              firstRead := true
              lastFlushed := NIL
              lastSynced := s.maxNum }

/-- `LogMgr::init` on an existing manifest of a database without tables (src/log_mgr.cc:62-202).
    The log files that are not loaded are deleted (`removeStaleFiles`, 333-375). -/
def recoverOnly (cfg : Cfg) (trunc : Bool) (m : PMani) (disk : List (DFile K)) : LogMgr K :=
  let s := loadOnly trunc disk m.entries
    { files := [], maxNum := m.max, lastFlushed := m.lastFlushed, lastSynced := m.lastSynced
      lastSeq := NIL, firstRead := false }
  { cfg := cfg
    files := if s.files = [] then [LogFile.create 0 0 1] else s.files
    maxNum := s.maxNum
    lastFlushed := s.lastFlushed
    lastSynced := s.lastSynced }

/-- The log section without its newest log file. -/
def withoutNewest (l : LogMgr K) : LogMgr K := { l with files := l.files.dropLast, maxNum := l.maxNum - 1 }

/-- The manifest that was stored when the newest log file was added and had no record yet
    (`LogMgr::addNewLogFile`, src/log_mgr.cc:489-550). -/
def whenAdded (l : LogMgr K) : PMani :=
  { l.withoutNewest.persist with
    max := l.maxNum
    entries := l.withoutNewest.persist.entries ++ [{ num := l.maxNum, min := NIL, flushed := NIL, synced := NIL }] }

/-- `LogManifest::reclaimExpiredLogFiles` for one file (src/log_manifest.cc:35-150): the memtable of
    an immutable file before the last synced one, not the first one, may be deleted; it is loaded
    again when it is needed (src/log_manifest.h:77-109).  Simplification: it is loaded at once;
    when a file expires is left open. -/
def evict (l : LogMgr K) (num : Nat) : LogMgr K :=
  match l.file? num with
  | none => l
  | some f =>
    if l.lastSynced ≠ NIL ∧ num ≠ l.minNum ∧ num < l.lastSynced ∧ f.immutable = true then l.setFile f.reload
    else l

end LogMgr
end Jungle
