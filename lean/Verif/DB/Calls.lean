/-
  The configuration and the arguments of API calls the properties are about.
-/
import Verif.DB.Model

namespace Jungle
open Spec
variable {K : Type} [LinearOrder K] {S : TableSys K}

/-- The configuration the key-value properties are about: writable, the caller does not ask to
    overwrite sequence numbers, tables are in use, a log file holds at least one record. -/
structure Cfg.Plain (c : Cfg) : Prop where
  rw : c.readOnly = false
  noOverwrite : c.allowOverwrite = false
  tables : c.logSectionOnly = false
  entries : 0 < c.maxEntries

/-- The 64-bit counters are not exhausted by `n` more records. -/
def DB.Fits (db : DB K S) (n : Nat) : Prop :=
  db.getMaxSeqNum.getD 0 + n < NIL ∧ db.log.maxNum + 1 < NIL

/-- A number the caller may give to a new record: none, or one above all earlier ones. -/
def DB.FreshSeq (db : DB K S) (n : Nat) : Prop :=
  n = NIL ∨ (n < NIL ∧ ∀ m, db.getMaxSeqNum = some m → m < n)

/-- An argument of `flushLogs`: everything, or a number whose record is in the log section (and
    synced, unless the option asks for unsynced records), or a number above all records. -/
def DB.FlushSeq (db : DB K S) (o : LogMgr.FlushOpts) (n : Nat) : Prop :=
  n = NIL ∨
  (∃ r, db.log.getSN n = (.ok, some r) ∧
    (o.beyondLastSync = true ∨ ∃ m, db.getLastSyncedSeqNum = some m ∧ n ≤ m)) ∨
  (∀ m, db.getMaxSeqNum = some m → m < n)

end Jungle
