/-
  Sessions that go on after a crash inside a flush.  The tables then hold part of the records of the
  flush, the log files still list all of them as not flushed, and the next flush writes them again.
-/
import Verif.DB.Session

namespace Jungle
open Spec
variable {K : Type} [LinearOrder K] {S : TableSys K}

/-- `LeftInFlush db cs o m d`: the handle `db` was lost in a crash during `flushLogs o m`
    (src/log_mgr.cc:1466-1593) and left `d` on disk.  The records are in some of the tables, or in all of
    them (src/table_set_batch.cc:32-170, each table file commits by itself); the flush marks of the log
    files and the manifest are not written yet, and no log file is removed yet.  A sync may have been
    writing the newest log file (`Left`). -/
structure LeftInFlush (db : DB K S) (cs : List PMani) (o : LogMgr.FlushOpts) (m : Nat) (d : Disk K S) : Prop where
  left : Left db cs { d with table := db.table }
  normal : o.purgeOnly = false
  synced : o.beyondLastSync = false
  safe : db.SafeFlush o m
  begun : m ≠ 0
  table : ∃ lnFrom lnTo s, db.log.flushRange o m = .ok (lnFrom, lnTo, s) ∧
    (S.torn db.table
        (LogMgr.gather s o.beyondLastSync
          (db.log.files.filter (fun f => decide (lnFrom ≤ f.num ∧ f.num ≤ lnTo))))
        (LogMgr.gatherCheckpoints s (db.log.files.filter (fun f => decide (lnFrom ≤ f.num ∧ f.num ≤ lnTo))))
        d.table ∨
      d.table = (db.log.flush o m db.table S.setBatch).2.2)

/-- `TSession p h n`: like `Session`, and the handle may also be lost in a crash inside a flush, again and
    again. -/
inductive TSession : PDB K S → List (Rec K) → Nat → Prop
  | init (c : Cfg) : c.Plain → TSession ⟨DB.init S c, [(LogMgr.init c : LogMgr K).persist]⟩ [] 0
  | set {db h n cs} (r : Rec K) (se : Bool) {db'} : TSession ⟨db, cs⟩ h n → db.Fits 1 → db.FreshSeq r.seq →
      (db.getMaxSeqNum = none → se = false) →
      db.setRecord r se = (.ok, db') →
      TSession ⟨db', if db'.log.maxNum = db.log.maxNum then cs else cs ++ [db.log.rotated]⟩
        (h ++ number (db.getMaxSeqNum.getD 0) [r]) n
  | setRefused {db h n cs} (r : Rec K) (se : Bool) {st db'} : TSession ⟨db, cs⟩ h n →
      db.setRecord r se = (st, db') → st ≠ .ok → TSession ⟨db', cs⟩ h n
  | batch {db h n cs} (b : List (Rec K)) {db'} : TSession ⟨db, cs⟩ h n → db.Fits b.length →
      (∀ r ∈ b, r.seq ≤ NIL) →
      db.setRecordBatch b = (.ok, db') →
      TSession ⟨db', cs⟩ (h ++ number (db.getMaxSeqNum.getD 0) b) n
  | batchRefused {db h n cs} (b : List (Rec K)) {st db'} : TSession ⟨db, cs⟩ h n → db.Fits b.length →
      (∀ r ∈ b, r.seq ≤ NIL) →
      db.setRecordBatch b = (st, db') → st ≠ .ok → TSession ⟨db', cs⟩ h n
  | sync {db h n cs db'} : TSession ⟨db, cs⟩ h n → db.sync = (.ok, db') →
      TSession ⟨db', [db'.log.persist]⟩ h h.length
  | syncRefused {db h n cs st db'} : TSession ⟨db, cs⟩ h n → db.sync = (st, db') → st ≠ .ok →
      TSession ⟨db', cs⟩ h n
  | syncSkip {db h n cs l'} : TSession ⟨db, cs⟩ h n → db.log.lastSynced = db.log.maxNum →
      db.getLastSyncedSeqNum ≠ none → db.log.sync = (.ok, l') → TSession ⟨{ db with log := l' }, cs⟩ h h.length
  | fewer {db h n cs cs'} : TSession ⟨db, cs⟩ h n → cs' ⊆ cs → cs' ≠ [] → TSession ⟨db, cs'⟩ h n
  | flush {db h n cs} (o : LogMgr.FlushOpts) (m : Nat) {db'} : TSession ⟨db, cs⟩ h n → o.purgeOnly = false →
      o.beyondLastSync = false → db.SafeFlush o m → db.flushLogs o m = (.ok, db') →
      TSession ⟨db', [db'.log.persist]⟩ h n
  | flushRefused {db h n cs} (o : LogMgr.FlushOpts) (m : Nat) {st db'} : TSession ⟨db, cs⟩ h n →
      o.purgeOnly = false → db.SafeFlush o m → db.flushLogs o m = (st, db') → st ≠ .ok → TSession ⟨db', cs⟩ h n
  | mark {db h n cs} : TSession ⟨db, cs⟩ h n → TSession ⟨{ db with log := db.log.checkpoint.1 }, cs⟩ h n
  | checkpoint {db h n cs db' c} : TSession ⟨db, cs⟩ h n → db.checkpoint = (.ok, db', c) →
      TSession ⟨db', [db'.log.persist]⟩ h h.length
  | maint {db h n cs t} : TSession ⟨db, cs⟩ h n → S.maint db.table t → TSession ⟨{ db with table := t }, cs⟩ h n
  | flags {db h n cs} (c r : Bool) : TSession ⟨db, cs⟩ h n →
      TSession ⟨{ db with closing := c, rollbackInProgress := r }, cs⟩ h n
  | reopen {db h n cs} (cfg : Cfg) (d : Disk K S) (q : Nat) : TSession ⟨db, cs⟩ h n → cfg.Plain → Left db cs d →
      (DB.reopen cfg d).getMaxSeqNum = some q →
      TSession ⟨DB.reopen cfg d, [d.mani]⟩ (h.filter (fun r => decide (r.seq ≤ q)))
        (h.filter (fun r => decide (r.seq ≤ q))).length
  /-- the handle is lost in a crash inside a flush, and the database is opened again -/
  | reopenFlush {db h n cs} (cfg : Cfg) (o : LogMgr.FlushOpts) (m : Nat) (d : Disk K S) (q : Nat) :
      TSession ⟨db, cs⟩ h n → cfg.Plain → LeftInFlush db cs o m d →
      (DB.reopen cfg d).getMaxSeqNum = some q →
      TSession ⟨DB.reopen cfg d, [d.mani]⟩ (h.filter (fun r => decide (r.seq ≤ q)))
        (h.filter (fun r => decide (r.seq ≤ q))).length

/-- Every session is one of these. -/
theorem Session.torn {p : PDB K S} {h : List (Rec K)} {n : Nat} (hs : Session p h n) : TSession p h n := by
  induction hs with
  | init c hc => exact .init c hc
  | set r se _ h1 h2 h3 h4 ih => exact .set r se ih h1 h2 h3 h4
  | setRefused r se _ h1 h2 ih => exact .setRefused r se ih h1 h2
  | batch b _ h1 h2 h3 ih => exact .batch b ih h1 h2 h3
  | batchRefused b _ h1 h2 h3 h4 ih => exact .batchRefused b ih h1 h2 h3 h4
  | sync _ h1 ih => exact .sync ih h1
  | syncRefused _ h1 h2 ih => exact .syncRefused ih h1 h2
  | syncSkip _ h1 h2 h3 ih => exact .syncSkip ih h1 h2 h3
  | fewer _ h1 h2 ih => exact .fewer ih h1 h2
  | flush o m _ h1 h2 h3 h4 ih => exact .flush o m ih h1 h2 h3 h4
  | flushRefused o m _ h1 h2 h3 h4 ih => exact .flushRefused o m ih h1 h2 h3 h4
  | mark _ ih => exact .mark ih
  | checkpoint _ h1 ih => exact .checkpoint ih h1
  | maint _ h1 ih => exact .maint ih h1
  | flags c r _ ih => exact .flags c r ih
  | reopen cfg d q _ h1 h2 h3 ih => exact .reopen cfg d q ih h1 h2 h3

end Jungle
