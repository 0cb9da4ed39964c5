/-
  A handle together with what it has left on disk, the places where it may crash, and what a
  later open finds.
-/
import Verif.DB.Calls
import Verif.Log.Crash

namespace Jungle
open Spec
variable {K : Type} [LinearOrder K] {S : TableSys K}

/-- What is on disk after a crash: the log manifest, the log files, the tables. -/
structure Disk (K : Type) [LinearOrder K] (S : TableSys K) where
  mani : PMani
  files : List (DFile K)
  table : S.T

/-- The log file with a given number. -/
def Disk.file (d : Disk K S) (num : Nat) : Option (DFile K) := d.files.find? (fun f => f.num == num)

/-- Opening a database that exists (`DB::open`, src/jungle.cc:50-183: `LogMgr::init` and
    `TableMgr::init`). -/
def DB.reopen (cfg : Cfg) (d : Disk K S) : DB K S :=
  { log := LogMgr.recover cfg d.mani d.files, table := S.reopen d.table }

/-- A handle and the versions of the log manifest that may be found after a crash: the last one
    written with fsync and every later one written without (src/log_manifest.cc:489-644). -/
structure PDB (K : Type) [LinearOrder K] (S : TableSys K) where
  db : DB K S
  cands : List PMani

/-- The calls of `flushLogs` for which crashes are considered: everything that is synced, or up to
    a record that is synced; or everything including what is not synced. -/
def DB.SafeFlush (db : DB K S) (o : LogMgr.FlushOpts) (n : Nat) : Prop :=
  n = NIL ∨
  (o.beyondLastSync = false ∧ ∃ r, db.log.getSN n = (.ok, some r) ∧
    ∃ m, db.getLastSyncedSeqNum = some m ∧ n ≤ m)

/-- `InFlush p o n d`: a crash during `flushLogs` (src/log_mgr.cc:1466-1593), begun in state `p`, may
    leave `d` on disk: the batch is written to some of the tables and no log file is removed; or it
    is written to all of them, and the log files below `lnTo` and below `cut` are removed; the
    manifest is not written yet. -/
def InFlush (p : PDB K S) (o : LogMgr.FlushOpts) (n : Nat) (d : Disk K S) : Prop :=
  d.mani ∈ p.cands ∧ n ≠ 0 ∧ ∃ lnFrom lnTo s cut, p.db.log.flushRange o n = .ok (lnFrom, lnTo, s) ∧
    ((cut ≤ lnFrom ∧
        S.torn p.db.table
          (LogMgr.gather s o.beyondLastSync
            (p.db.log.files.filter (fun f => decide (lnFrom ≤ f.num ∧ f.num ≤ lnTo))))
          (LogMgr.gatherCheckpoints s (p.db.log.files.filter (fun f => decide (lnFrom ≤ f.num ∧ f.num ≤ lnTo))))
          d.table) ∨
      d.table = (p.db.log.flush o n p.db.table S.setBatch).2.2) ∧
    ∀ f ∈ p.db.log.files,
      if lnFrom ≤ f.num ∧ f.num < lnTo ∧ f.num < cut then d.file f.num = none
      else Survives f (d.file f.num)

/-- `Crash p d`: a crash in state `p`, or during a sync or a flush begun in state `p`, may leave
    `d` on disk.  Within one log file writes reach the disk in order, possibly not all of them,
    possibly ending inside an item. -/
inductive Crash (p : PDB K S) : Disk K S → Prop
  /-- no sync and no flush is running -/
  | idle (d : Disk K S) : d.mani ∈ p.cands → d.table = p.db.table →
      (∀ f ∈ p.db.log.files, Survives f (d.file f.num)) → Crash p d
  /-- during a sync (src/log_mgr.cc:1245-1310): the files before `g` are written and synced, `g`
      is being written, the manifest is not written yet -/
  | inSync (d : Disk K S) (P : List (LogFile K)) (g : LogFile K) (Q : List (LogFile K)) :
      d.mani ∈ p.cands → d.table = p.db.table →
      p.db.log.files = P ++ g :: Q → p.db.log.syncFrom ≤ g.num →
      (∀ f ∈ P, Survives (p.db.log.syncOne f) (d.file f.num)) →
      (Survives g (d.file g.num) ∨
        ∃ items tail, d.file g.num = some ⟨g.num, items, tail⟩ ∧ tail ≠ .bad ∧
          g.disk <+: items ∧ items <+: (p.db.log.syncOne g).disk) →
      (∀ f ∈ Q, Survives f (d.file f.num)) → Crash p d
  | inFlush (d : Disk K S) (o : LogMgr.FlushOpts) (n : Nat) : o.purgeOnly = false → o.beyondLastSync = false →
      p.db.SafeFlush o n → InFlush p o n d → Crash p d

/-- The state in which a crash is survived as if the flush had not begun. -/
def Crash.Idle (p : PDB K S) (d : Disk K S) : Prop :=
  d.mani ∈ p.cands ∧ d.table = p.db.table ∧ ∀ f ∈ p.db.log.files, Survives f (d.file f.num)

/-- The disk of a handle when nothing is being written. -/
def DB.diskOf (db : DB K S) : Disk K S :=
  { mani := db.log.persist, files := db.log.files.map LogFile.onDisk, table := db.table }

/-- `Left db cs d`: the handle `db` is gone - closed, or lost in a crash - and left `d` on disk.
    The handle may have been closed after a sync (`LogMgr::close` syncs, src/log_mgr.cc:2076-2130),
    or the crash may have happened at rest or while a sync was writing the newest log file, which
    then ends between two items.  No log file was added since the last sync. -/
structure Left (db : DB K S) (cs : List PMani) (d : Disk K S) : Prop where
  mani : d.mani ∈ cs
  table : d.table = db.table
  synced : db.log.lastSynced = db.log.maxNum
  once : db.getLastSyncedSeqNum ≠ none
  files : ∀ f ∈ db.log.files, ∃ items, d.file f.num = some ⟨f.num, items, .clean⟩ ∧
    f.disk <+: items ∧ items <+: (db.log.syncOne f).disk

/-- Opening again what a handle left gives a database whose highest sequence number is `q`.  No flush
    wrote records to the tables that the log files lack on disk (Verif/DB/Session.lean). -/
structure Reopens (db : DB K S) (cs : List PMani) (cfg : Cfg) (d : Disk K S) (q : Nat) : Prop extends Left db cs d where
  plain : cfg.Plain
  complete : ∀ f ∈ db.log.files, f.Complete
  max : (DB.reopen cfg d).getMaxSeqNum = some q

/-- `PReach p h n`: a sequence of calls leads to `p`, `h` lists the accepted records, and the first
    `n` of them were accepted before the last sync that returned OK. -/
inductive PReach : PDB K S → List (Rec K) → Nat → Prop
  | init (c : Cfg) : c.Plain → PReach ⟨DB.init S c, [(LogMgr.init c : LogMgr K).persist]⟩ [] 0
  | set {db h n cs} (r : Rec K) (se : Bool) {db'} : PReach ⟨db, cs⟩ h n → db.Fits 1 → db.FreshSeq r.seq →
      (db.getMaxSeqNum = none → se = false) →
      db.setRecord r se = (.ok, db') →
      PReach ⟨db', if db'.log.maxNum = db.log.maxNum then cs else cs ++ [db.log.rotated]⟩
        (h ++ number (db.getMaxSeqNum.getD 0) [r]) n
  | setRefused {db h n cs} (r : Rec K) (se : Bool) {st db'} : PReach ⟨db, cs⟩ h n →
      db.setRecord r se = (st, db') → st ≠ .ok → PReach ⟨db', cs⟩ h n
  | batch {db h n cs} (b : List (Rec K)) {db'} : PReach ⟨db, cs⟩ h n → db.Fits b.length →
      (∀ r ∈ b, r.seq ≤ NIL) →
      db.setRecordBatch b = (.ok, db') →
      PReach ⟨db', cs⟩ (h ++ number (db.getMaxSeqNum.getD 0) b) n
  | batchRefused {db h n cs} (b : List (Rec K)) {st db'} : PReach ⟨db, cs⟩ h n → db.Fits b.length →
      (∀ r ∈ b, r.seq ≤ NIL) →
      db.setRecordBatch b = (st, db') → st ≠ .ok → PReach ⟨db', cs⟩ h n
  /-- a completed sync with fsync -/
  | sync {db h n cs db'} : PReach ⟨db, cs⟩ h n → db.sync = (.ok, db') →
      PReach ⟨db', [db'.log.persist]⟩ h h.length
  | syncRefused {db h n cs st db'} : PReach ⟨db, cs⟩ h n → db.sync = (st, db') → st ≠ .ok →
      PReach ⟨db', cs⟩ h n
  /-- a completed sync (or the one of a checkpoint) that does not store the manifest
      (`skipManifestSync`, src/log_mgr.cc:1303-1308): no log file was added since the last one, which
      had something to sync -/
  | syncSkip {db h n cs l'} : PReach ⟨db, cs⟩ h n → db.log.lastSynced = db.log.maxNum →
      db.getLastSyncedSeqNum ≠ none → db.log.sync = (.ok, l') → PReach ⟨{ db with log := l' }, cs⟩ h h.length
  /-- the same with a manifest that is stored, without fsync (`sync(false)`) -/
  | syncOff {db h n cs l'} : PReach ⟨db, cs⟩ h n → db.log.lastSynced = db.log.maxNum →
      db.getLastSyncedSeqNum ≠ none → db.log.sync = (.ok, l') →
      PReach ⟨{ db with log := l' }, cs ++ [l'.persist]⟩ h h.length
  /-- fewer versions of the manifest may be found (`skipManifestSync`, src/log_mgr.cc:529-532: it is
      not stored when a log file is added) -/
  | fewer {db h n cs cs'} : PReach ⟨db, cs⟩ h n → cs' ⊆ cs → cs' ≠ [] → PReach ⟨db, cs'⟩ h n
  /-- a completed flush -/
  | flush {db h n cs} (o : LogMgr.FlushOpts) (m : Nat) {db'} : PReach ⟨db, cs⟩ h n → o.purgeOnly = false →
      db.SafeFlush o m → db.flushLogs o m = (.ok, db') → PReach ⟨db', [db'.log.persist]⟩ h n
  | flushRefused {db h n cs} (o : LogMgr.FlushOpts) (m : Nat) {st db'} : PReach ⟨db, cs⟩ h n → o.purgeOnly = false →
      db.SafeFlush o m → db.flushLogs o m = (st, db') → st ≠ .ok → PReach ⟨db', cs⟩ h n
  /-- a checkpoint before its sync (src/log_mgr.cc:1755-1776) -/
  | mark {db h n cs} : PReach ⟨db, cs⟩ h n → PReach ⟨{ db with log := db.log.checkpoint.1 }, cs⟩ h n
  /-- a completed checkpoint -/
  | checkpoint {db h n cs db' c} : PReach ⟨db, cs⟩ h n → db.checkpoint = (.ok, db', c) →
      PReach ⟨db', [db'.log.persist]⟩ h h.length
  /-- compaction, split, merge of tables -/
  | maint {db h n cs t} : PReach ⟨db, cs⟩ h n → S.maint db.table t → PReach ⟨{ db with table := t }, cs⟩ h n
  | flags {db h n cs} (c r : Bool) : PReach ⟨db, cs⟩ h n →
      PReach ⟨{ db with closing := c, rollbackInProgress := r }, cs⟩ h n
  /-- the database is opened again, after it was closed or after a crash: the records up to `q` are
      its history from now on, all of them are on disk -/
  | reopen {db h n cs} (cfg : Cfg) (d : Disk K S) (q : Nat) : PReach ⟨db, cs⟩ h n → Reopens db cs cfg d q →
      PReach ⟨DB.reopen cfg d, [d.mani]⟩ (h.filter (fun r => decide (r.seq ≤ q)))
        (h.filter (fun r => decide (r.seq ≤ q))).length

end Jungle
