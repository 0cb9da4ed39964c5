/-
  Rollbacks and crashes in log-section mode (src/log_mgr.cc:226-331), and log files that a rollback
  removes while an iterator or a snapshot still refers to them (src/log_manifest.h:115-199).
-/
import Verif.DB.Rollback

namespace Jungle
variable {K : Type} [LinearOrder K] {S : TableSys K}

/-- `RollbackCrash db n d`: the process is lost during `rollback(n)` on `db` and leaves `d` on disk; what
    the operating system was given is not lost.  The order is that of src/log_mgr.cc:226-331. -/
inductive RollbackCrash (db : DB K S) (n : Nat) : Disk K S → Prop
  /-- after the sync (282) and before the log file is cut -/
  | before {l1} : db.log.sync = (.ok, l1) → RollbackCrash db n ({ db with log := l1 } : DB K S).diskOf
  /-- after the log file is cut (292) and before the manifest is stored (321).  Of the later log files
      any may have been deleted: the background thread deletes them once they are let go of
      (303-316, src/db_mgr.cc:404-435). -/
  | cut {l1 f f1} (keep : Nat → Bool) : db.log.sync = (.ok, l1) → l1.fileBySeq n = some f →
      f.truncate n = (.ok, f1) →
      RollbackCrash db n
        { mani := l1.persist
          files := ((l1.setFile f1).files.filter (fun g => decide (g.num ≤ f.num) || keep g.num)).map LogFile.onDisk
          table := db.table }
  /-- after the manifest is stored -/
  | done {db'} : db.rollback n = (.ok, db') → RollbackCrash db n db'.diskOf

/-- What is on disk after a successful rollback and a power failure: the manifest was synced
    (src/log_mgr.cc:321), the file that was cut was not (`ftruncate` without `fsync`,
    src/log_file.cc:310-312, src/fileops_posix.cc:187-198), and has its former content. -/
def DB.rollbackPowerLoss (db : DB K S) (n : Nat) : Option (Disk K S) :=
  match db.log.sync, db.rollback n with
  | (.ok, l1), (.ok, db') =>
    some { db'.diskOf with
      files := (l1.files.filter (fun g => decide (g.num ≤ db'.log.maxNum))).map LogFile.onDisk }
  | _, _ => none

/-- A handle in log-section mode with the references of its iterators and snapshots to log files
    (`refCount`, `snapCount`, src/log_manifest.h:77-200).  `held`: the numbers of removed log files that
    are still referred to.  `gone`: the log files of the handle whose name was deleted. -/
structure HeldDB (K : Type) [LinearOrder K] (S : TableSys K) where
  db : DB K S
  held : List Nat := []
  gone : List Nat := []

namespace HeldDB

/-- `rollback(n)` while iterators and snapshots refer to the log files in `used`: these are not deleted
    before they are let go of (src/log_manifest.h:142-177). -/
def rollback (s : HeldDB K S) (n : Nat) (used : List Nat) : Status × HeldDB K S :=
  let res := s.db.rollback n
  (res.1,
    { s with
      db := res.2
      held := s.held ++ (s.db.log.files.map (·.num)).filter (fun m => decide (m ∈ used) && decide (res.2.log.maxNum < m)) })

/-- A write; a log file that it adds is created under its name (`LogFile::create`,
    src/log_file.cc:129-178). -/
def set (s : HeldDB K S) (k : K) (v : Bytes) : Status × HeldDB K S :=
  let res := s.db.set k v
  (res.1,
    { s with
      db := res.2
      gone := s.gone.filter (fun m => res.2.log.files.length == s.db.log.files.length || m != res.2.log.maxNum) })

/-- `sync(true)`. -/
def sync (s : HeldDB K S) : Status × HeldDB K S :=
  let res := s.db.sync
  (res.1, { s with db := res.2 })

/-- The last iterator or snapshot that refers to a removed log file lets go of it: the file is deleted
    by its name (`LogFile::destroySelf`, src/log_file.cc:681-710, `DBMgr::addFileToRemove`,
    src/db_mgr.cc:404-435), whichever file has this name now. -/
def release (s : HeldDB K S) (num : Nat) : HeldDB K S :=
  if num ∈ s.held then { s with held := s.held.erase num, gone := num :: s.gone } else s

/-- What is on disk. -/
def disk (s : HeldDB K S) : Disk K S :=
  { s.db.diskOf with files := s.db.diskOf.files.filter (fun f => !decide (f.num ∈ s.gone)) }

end HeldDB
end Jungle
