/-
  Executions of a handle: which states a sequence of API calls can reach, together with the
  history of accepted writes.
-/
import Verif.DB.Crash

namespace Jungle
open Spec
variable {K : Type} [LinearOrder K] {S : TableSys K}

/-- `Reach db h`: some sequence of calls leads to `db`, and `h` lists the accepted records in
    the order and with the numbers they were accepted. -/
inductive Reach : DB K S → List (Rec K) → Prop
  | init (c : Cfg) : c.Plain → Reach (DB.init S c) []
  /-- the database was opened again any number of times, after it was closed or after crashes; `h` is
      what is left of the history -/
  | session {p h n} : PReach p h n → Reach p.db h
  /-- an accepted single write (`set`, `setSN`, `setRecord`, `setRecordByKey`, `del`, …) -/
  | set {db h} (r : Rec K) (se : Bool) {db'} : Reach db h → db.Fits 1 → db.FreshSeq r.seq →
      (db.getMaxSeqNum = none → se = false) →
      db.setRecord r se = (.ok, db') →
      Reach db' (h ++ number (db.getMaxSeqNum.getD 0) [r])
  /-- a refused single write -/
  | setRefused {db h} (r : Rec K) (se : Bool) {st db'} : Reach db h →
      db.setRecord r se = (st, db') → st ≠ .ok → Reach db' h
  /-- an accepted batch -/
  | batch {db h} (b : List (Rec K)) {db'} : Reach db h → db.Fits b.length →
      (∀ r ∈ b, r.seq ≤ NIL) →
      db.setRecordBatch b = (.ok, db') →
      Reach db' (h ++ number (db.getMaxSeqNum.getD 0) b)
  /-- a refused batch -/
  | batchRefused {db h} (b : List (Rec K)) {st db'} : Reach db h → db.Fits b.length →
      (∀ r ∈ b, r.seq ≤ NIL) →
      db.setRecordBatch b = (st, db') → st ≠ .ok → Reach db' h
  | sync {db h} {st db'} : Reach db h → db.sync = (st, db') → Reach db' h
  | flush {db h} (o : LogMgr.FlushOpts) (n : Nat) {st db'} : Reach db h → o.purgeOnly = false →
      db.FlushSeq o n → db.flushLogs o n = (st, db') → Reach db' h
  | checkpoint {db h} {st db' c} : Reach db h → db.checkpoint = (st, db', c) → Reach db' h
  /-- compaction, split, merge of tables -/
  | maint {db h} {t} : Reach db h → S.maint db.table t → Reach { db with table := t } h
  /-- another thread begins or ends closing or rolling back the handle -/
  | flags {db h} (c r : Bool) : Reach db h →
      Reach { db with closing := c, rollbackInProgress := r } h

end Jungle
