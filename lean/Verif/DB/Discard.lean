/-
  `DB::discardDirty`, and executions in which it is called.
-/
import Verif.DB.Reach
import Verif.Log.Discard

namespace Jungle
open Spec
variable {K : Type} [LinearOrder K] {S : TableSys K}

/-- `DB::discardDirty` (src/jungle.cc:465-470). -/
def DB.discardDirty (db : DB K S) (n : Nat) : Status × DB K S :=
  if db.check .flush ≠ .ok then (db.check .flush, db)
  else
    let res := db.log.discardDirty n
    (res.1, { db with log := res.2 })

/-- The history after `discardDirty(n)`: the records below `n`, and those already in tables,
    that is, up to the last flushed number. -/
def kept (lastFlushed : Option Nat) (n : Nat) (h : List (Rec K)) : List (Rec K) :=
  h.filter (fun r => decide (r.seq < n) || (match lastFlushed with
    | some m => decide (r.seq ≤ m)
    | none => false))

/-- `DReach db h`: some sequence of calls, discards among them, leads to `db`; `h` lists the
    accepted records that were not discarded.  Flushes are without an explicit number or take
    unsynced records along (`beyondLastSync`); for other flushes see
    `C39_flushed_unsynced_violation`. -/
inductive DReach : DB K S → List (Rec K) → Prop
  | init (c : Cfg) : c.Plain → DReach (DB.init S c) []
  /-- the database was opened again any number of times, after it was closed or after crashes; `h` is
      what is left of the history -/
  | session {p h n} : PReach p h n → DReach p.db h
  | set {db h} (r : Rec K) (se : Bool) {db'} : DReach db h → db.Fits 1 → db.FreshSeq r.seq →
      (db.getMaxSeqNum = none → se = false) →
      db.setRecord r se = (.ok, db') →
      DReach db' (h ++ number (db.getMaxSeqNum.getD 0) [r])
  | setRefused {db h} (r : Rec K) (se : Bool) {st db'} : DReach db h →
      db.setRecord r se = (st, db') → st ≠ .ok → DReach db' h
  | batch {db h} (b : List (Rec K)) {st db'} : DReach db h → db.Fits b.length →
      (∀ r ∈ b, r.seq ≤ NIL) →
      db.setRecordBatch b = (st, db') →
      DReach db' (if st = .ok then h ++ number (db.getMaxSeqNum.getD 0) b else h)
  | sync {db h} {st db'} : DReach db h → db.sync = (st, db') → DReach db' h
  | flush {db h} (o : LogMgr.FlushOpts) (n : Nat) {st db'} : DReach db h → o.purgeOnly = false →
      db.FlushSeq o n → (n = NIL ∨ o.beyondLastSync = true) → db.flushLogs o n = (st, db') → DReach db' h
  | checkpoint {db h} {st db' c} : DReach db h → db.checkpoint = (st, db', c) → DReach db' h
  | maint {db h} {t} : DReach db h → S.maint db.table t → DReach { db with table := t } h
  | flags {db h} (c r : Bool) : DReach db h →
      DReach { db with closing := c, rollbackInProgress := r } h
  | discard {db h} (n : Nat) {st db'} : DReach db h → db.discardDirty n = (st, db') →
      DReach db' (if st = .ok then kept db.getLastFlushedSeqNum n h else h)

end Jungle
