/-
  Model of `DB::rollback` (src/jungle.cc:340-349) and of the reads after it.
-/
import Verif.DB.Reach
import Verif.DB.Crash
import Verif.Log.LogStore

namespace Jungle
namespace DB
variable {K : Type} [LinearOrder K] {S : TableSys K}

/-- `DB::rollback` (src/jungle.cc:340-349) with `logFileTtl_sec` not 0.  The flag
    `rollbackInProgress` is set only while it runs (src/log_mgr.cc:276-279). -/
def rollback (db : DB K S) (n : Nat) : Status × DB K S :=
  if db.check .write ≠ .ok then (db.check .write, db)
  else if !db.log.cfg.logSectionOnly then (.invalidMode, db)
  else
    let res := db.log.rollback n
    (res.1, { db with log := res.2 })

/-- `DB::rollback` with `logFileTtl_sec = 0`, the default (include/libjungle/db_config.h:123): the
    memtable of the truncated file is deleted, and `grab` does not load it again because the
    reclaimer is not active.  The third component is the number of the file without memtable. -/
def rollbackNoTtl (db : DB K S) (n : Nat) : Status × DB K S × Option Nat :=
  if db.check .write ≠ .ok then (db.check .write, db, none)
  else if !db.log.cfg.logSectionOnly then (.invalidMode, db, none)
  else
    let res := db.log.rollbackCore n
    (res.1, { db with log := res.2.1 }, res.2.2)

/-- `LogMgr::get` in log-only mode (src/log_mgr.cc:889-901) while file `gone` has no memtable: the
    files are searched from the newest; `LogFile::get` on the file without memtable follows a null
    pointer (src/log_file.cc:362-378). -/
def getWithout (db : DB K S) (gone : Nat) (k : K) : Status × Option (Rec K) :=
  match LogMgr.getFrom 0 NIL false false k
      ((db.log.files.filter (fun f => decide (gone < f.num))).reverse) with
  | some r => (.ok, some r)
  | none => (.undefinedBehaviour, none)

end DB

open Spec
variable {K : Type} [LinearOrder K] {S : TableSys K}

/-- Log-section mode: writable, numbers are not overwritten, no tables, a log file holds at least
    one record (and `logFileTtl_sec` is not 0, see `DB.rollback`). -/
structure Cfg.LogOnly (c : Cfg) : Prop where
  rw : c.readOnly = false
  noOverwrite : c.allowOverwrite = false
  only : c.logSectionOnly = true
  entries : 0 < c.maxEntries

/-- The records a rollback to `n` is to keep. -/
def Spec.upTo (h : List (Rec K)) (n : Nat) : List (Rec K) := h.filter (fun r => decide (r.seq ≤ n))

/-- Opening a database without tables that exists (`DB::open`, src/jungle.cc:50-183); `trunc` is
    `truncateInconsecutiveLogs` (include/libjungle/db_config.h:214-219), by default true. -/
def DB.reopenOnly (cfg : Cfg) (trunc : Bool) (d : Disk K S) : DB K S :=
  { log := LogMgr.recoverOnly cfg trunc d.mani d.files, table := S.reopen d.table }

/-- `LogLeft db d`: the handle `db` in log-section mode is gone - closed, or lost in a crash - and left
    `d` on disk.  It may have been closed after a sync (src/log_mgr.cc:2076-2130), or the crash may
    have happened at rest or while a sync was writing the newest log file, which then ends between
    two items.  No log file was added since the last sync or rollback, both of which store the
    manifest: a write to a file that has records changes nothing the manifest holds.
    Simplification: after a rollback to a number that no record has, the manifest holds this number
    as the synced one of the file, here it is that of the last record. -/
structure LogLeft (db : DB K S) (d : Disk K S) : Prop where
  mani : d.mani = db.log.persist
  synced : db.log.lastSynced = db.log.maxNum
  once : db.getLastSyncedSeqNum ≠ none
  files : ∀ f ∈ db.log.files, ∃ items, d.file f.num = some ⟨f.num, items, .clean⟩ ∧
    f.disk <+: items ∧ items <+: (db.log.syncOne f).disk

/-- `LogLeftNew db d`: the process with the handle `db` in log-section mode was lost after a log file was
    added and before the next sync was complete; it left `d` on disk.  The manifest is the one stored
    when the log file was added, or, since it was not synced, the one before.  Of the newest log file
    anything may be there; the one before it ends between two items. -/
structure LogLeftNew (db : DB K S) (d : Disk K S) : Prop where
  mani : d.mani = db.log.whenAdded ∨ d.mani = db.log.withoutNewest.persist
  synced : db.log.lastSynced + 1 = db.log.maxNum
  once : db.getLastSyncedSeqNum ≠ none
  files : ∀ f ∈ db.log.files, f.num < db.log.maxNum → ∃ items, d.file f.num = some ⟨f.num, items, .clean⟩ ∧
    f.disk <+: items ∧ items <+: (db.log.syncOne f).disk

/-- `LogReach db h`: some sequence of calls in log-section mode leads to `db`; `h` lists the
    records that were accepted and not rolled back, in order. -/
inductive LogReach : DB K S → List (Rec K) → Prop
  | init (c : Cfg) : c.LogOnly → LogReach (DB.init S c) []
  | set {db h} (r : Rec K) (se : Bool) {db'} : LogReach db h → db.Fits 1 → db.FreshSeq r.seq →
      (db.getMaxSeqNum = none → se = false) →
      db.setRecord r se = (.ok, db') →
      LogReach db' (h ++ number (db.getMaxSeqNum.getD 0) [r])
  | setRefused {db h} (r : Rec K) (se : Bool) {st db'} : LogReach db h →
      db.setRecord r se = (st, db') → st ≠ .ok → LogReach db' h
  | batch {db h} (b : List (Rec K)) {db'} : LogReach db h → db.Fits b.length →
      (∀ r ∈ b, r.seq ≤ NIL) →
      db.setRecordBatch b = (.ok, db') →
      LogReach db' (h ++ number (db.getMaxSeqNum.getD 0) b)
  | batchRefused {db h} (b : List (Rec K)) {st db'} : LogReach db h → db.Fits b.length →
      (∀ r ∈ b, r.seq ≤ NIL) →
      db.setRecordBatch b = (st, db') → st ≠ .ok → LogReach db' h
  | sync {db h} {st db'} : LogReach db h → db.sync = (st, db') → LogReach db' h
  | checkpoint {db h} {st db' c} : LogReach db h → db.checkpoint = (st, db', c) → LogReach db' h
  | rollback {db h} (n : Nat) {db'} : LogReach db h → h ≠ [] → db.rollback n = (.ok, db') →
      LogReach db' (upTo h n)
  | rollbackRefused {db h} (n : Nat) {st db'} : LogReach db h → h ≠ [] → db.rollback n = (st, db') →
      st ≠ .ok → LogReach db' h
  | flags {db h} (c r : Bool) : LogReach db h →
      LogReach { db with closing := c, rollbackInProgress := r } h
  /-- the reclaimer deletes a memtable, and it is loaded again -/
  | evict {db h} (num : Nat) : LogReach db h → LogReach { db with log := db.log.evict num } h
  /-- the database is opened again, after it was closed or after a crash: the records up to `q` are
      its history from now on -/
  | reopen {db h} (cfg : Cfg) (trunc : Bool) (d : Disk K S) (q : Nat) : LogReach db h → cfg.LogOnly →
      LogLeft db d → (trunc = true → Consecutive h) →
      (DB.reopenOnly cfg trunc d).getMaxSeqNum = some q →
      LogReach (DB.reopenOnly cfg trunc d) (upTo h q)
  /-- the same after a crash that leaves a new log file without a synced record -/
  | reopenNew {db h} (cfg : Cfg) (d : Disk K S) (q : Nat) : LogReach db h → cfg.LogOnly →
      LogLeftNew db d → Consecutive h →
      (DB.reopenOnly cfg true d).getMaxSeqNum = some q →
      LogReach (DB.reopenOnly cfg true d) (upTo h q)

end Jungle
