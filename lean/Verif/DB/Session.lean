/-
  Several sessions with the same database: it is opened, used, closed or lost in a crash, and opened
  again.
-/
import Verif.DB.Crash

namespace Jungle
open Spec
variable {K : Type} [LinearOrder K] {S : TableSys K}

/-- `Session p h n`: a sequence of calls, of closing and reopening and of crashes leads to `p`; `h` lists
    the accepted records that are left, and the first `n` of them were accepted before the last sync
    that returned OK.  Flushes do not ask for records that are not synced: after such a flush and a
    restart numbers are given out again (`C04_restart_reuse_violation` is about that). -/
inductive Session : PDB K S → List (Rec K) → Nat → Prop
  | init (c : Cfg) : c.Plain → Session ⟨DB.init S c, [(LogMgr.init c : LogMgr K).persist]⟩ [] 0
  | set {db h n cs} (r : Rec K) (se : Bool) {db'} : Session ⟨db, cs⟩ h n → db.Fits 1 → db.FreshSeq r.seq →
      (db.getMaxSeqNum = none → se = false) →
      db.setRecord r se = (.ok, db') →
      Session ⟨db', if db'.log.maxNum = db.log.maxNum then cs else cs ++ [db.log.rotated]⟩
        (h ++ number (db.getMaxSeqNum.getD 0) [r]) n
  | setRefused {db h n cs} (r : Rec K) (se : Bool) {st db'} : Session ⟨db, cs⟩ h n →
      db.setRecord r se = (st, db') → st ≠ .ok → Session ⟨db', cs⟩ h n
  | batch {db h n cs} (b : List (Rec K)) {db'} : Session ⟨db, cs⟩ h n → db.Fits b.length →
      (∀ r ∈ b, r.seq ≤ NIL) →
      db.setRecordBatch b = (.ok, db') →
      Session ⟨db', cs⟩ (h ++ number (db.getMaxSeqNum.getD 0) b) n
  | batchRefused {db h n cs} (b : List (Rec K)) {st db'} : Session ⟨db, cs⟩ h n → db.Fits b.length →
      (∀ r ∈ b, r.seq ≤ NIL) →
      db.setRecordBatch b = (st, db') → st ≠ .ok → Session ⟨db', cs⟩ h n
  /-- a completed sync with fsync -/
  | sync {db h n cs db'} : Session ⟨db, cs⟩ h n → db.sync = (.ok, db') →
      Session ⟨db', [db'.log.persist]⟩ h h.length
  | syncRefused {db h n cs st db'} : Session ⟨db, cs⟩ h n → db.sync = (st, db') → st ≠ .ok →
      Session ⟨db', cs⟩ h n
  /-- a completed sync (or the one of a checkpoint) that does not store the manifest
      (`skipManifestSync`, src/log_mgr.cc:1303-1308): no log file was added since the last one, which
      had something to sync -/
  | syncSkip {db h n cs l'} : Session ⟨db, cs⟩ h n → db.log.lastSynced = db.log.maxNum →
      db.getLastSyncedSeqNum ≠ none → db.log.sync = (.ok, l') → Session ⟨{ db with log := l' }, cs⟩ h h.length
  /-- fewer versions of the manifest may be found (`skipManifestSync`, src/log_mgr.cc:529-532: it is
      not stored when a log file is added) -/
  | fewer {db h n cs cs'} : Session ⟨db, cs⟩ h n → cs' ⊆ cs → cs' ≠ [] → Session ⟨db, cs'⟩ h n
  /-- a completed flush -/
  | flush {db h n cs} (o : LogMgr.FlushOpts) (m : Nat) {db'} : Session ⟨db, cs⟩ h n → o.purgeOnly = false →
      o.beyondLastSync = false → db.SafeFlush o m → db.flushLogs o m = (.ok, db') → Session ⟨db', [db'.log.persist]⟩ h n
  | flushRefused {db h n cs} (o : LogMgr.FlushOpts) (m : Nat) {st db'} : Session ⟨db, cs⟩ h n → o.purgeOnly = false →
      db.SafeFlush o m → db.flushLogs o m = (st, db') → st ≠ .ok → Session ⟨db', cs⟩ h n
  /-- a checkpoint before its sync (src/log_mgr.cc:1755-1776) -/
  | mark {db h n cs} : Session ⟨db, cs⟩ h n → Session ⟨{ db with log := db.log.checkpoint.1 }, cs⟩ h n
  /-- a completed checkpoint -/
  | checkpoint {db h n cs db' c} : Session ⟨db, cs⟩ h n → db.checkpoint = (.ok, db', c) →
      Session ⟨db', [db'.log.persist]⟩ h h.length
  /-- compaction, split, merge of tables -/
  | maint {db h n cs t} : Session ⟨db, cs⟩ h n → S.maint db.table t → Session ⟨{ db with table := t }, cs⟩ h n
  | flags {db h n cs} (c r : Bool) : Session ⟨db, cs⟩ h n →
      Session ⟨{ db with closing := c, rollbackInProgress := r }, cs⟩ h n
  /-- the handle is closed, or lost in a crash, and the database is opened again: the records up to `q`
      are its history from now on, all of them are on disk -/
  | reopen {db h n cs} (cfg : Cfg) (d : Disk K S) (q : Nat) : Session ⟨db, cs⟩ h n → cfg.Plain → Left db cs d →
      (DB.reopen cfg d).getMaxSeqNum = some q →
      Session ⟨DB.reopen cfg d, [d.mani]⟩ (h.filter (fun r => decide (r.seq ≤ q)))
        (h.filter (fun r => decide (r.seq ≤ q))).length

end Jungle
