/-
  Model of src/jungle.cc: the public handle `DB` over the log section and the tables.
-/
import Verif.Log.LogMgr
import Verif.Spec.KV

namespace Jungle

/-- The part of the table manager the handle uses (src/table_mgr.cc: `get`,
    src/table_set_batch.cc: `setBatch`), with the laws that `DB` relies on.  The laws are
    proved for the models of the tables in `Verif/Table`; `Flat` below is the smallest
    instance. -/
structure TableSys (K : Type) [LinearOrder K] where
  /-- state of the table section -/
  T : Type
  /-- a new, empty table section -/
  empty : T
  /-- states that occur -/
  Inv : T → Prop
  /-- `TableMgr::get` on the live handle: `none` is KEY_NOT_FOUND; a tombstone is returned -/
  get : T → K → Option (Rec K)
  /-- `TableMgr::setBatch` with the list of checkpoints -/
  setBatch : T → List (Rec K) → List Nat → T
  /-- what may be on disk after a crash inside `setBatch`: any part of the per-partition writes
      is committed (each table file commits atomically) -/
  torn : T → List (Rec K) → List Nat → T → Prop
  /-- loading the table section again (`TableMgr::init`) -/
  reopen : T → T
  /-- one complete maintenance operation (compaction, split, merge, …) -/
  maint : T → T → Prop
  inv_empty : Inv empty
  get_empty : ∀ k, get empty k = none
  inv_setBatch : ∀ t R c, Inv t → Spec.Increasing R → Inv (setBatch t R c)
  get_setBatch : ∀ t R c k, Inv t → Spec.Increasing R →
    Spec.vis (get (setBatch t R c) k) =
      match Spec.lastWrite R k with
      | some r => Spec.vis (some r)
      | none => Spec.vis (get t k)
  torn_ok : ∀ t R c t', Inv t → Spec.Increasing R → torn t R c t' →
    Inv t' ∧ ∀ k, Spec.vis (get t' k) = Spec.vis (get t k) ∨
      Spec.vis (get t' k) = Spec.vis (get (setBatch t R c) k)
  reopen_ok : ∀ t, Inv t → Inv (reopen t) ∧ ∀ k, Spec.vis (get (reopen t) k) = Spec.vis (get t k)
  maint_ok : ∀ t t', Inv t → maint t t' →
    Inv t' ∧ ∀ k, Spec.vis (get t' k) = Spec.vis (get t k)

/-- `DB` and `DBInternal` (src/jungle.cc, src/db_internal.h): the log section, the tables and
    the flags `checkHandleValidity` looks at. -/
structure DB (K : Type) [LinearOrder K] (S : TableSys K) where
  log : LogMgr K
  table : S.T
  closing : Bool := false
  rollbackInProgress : Bool := false

/-- `DBInternal::OpType` (src/db_internal.h). -/
inductive OpType
  | read | write | flush | compact
  deriving DecidableEq, Repr

namespace DB
variable {K : Type} [LinearOrder K] {S : TableSys K}

/-- First open of a new database (src/jungle.cc:50-183). -/
def init (S : TableSys K) (cfg : Cfg) : DB K S := { log := LogMgr.init cfg, table := S.empty }

/-- `DBInternal::checkHandleValidity` (src/jungle.cc:1077-1087). -/
def check (db : DB K S) (op : OpType) : Status :=
  if db.closing then .handleIsBeingClosed
  else if op ≠ .read ∧ db.rollbackInProgress then .rollbackInProgress
  else .ok

/-- `DB::setRecord` (src/jungle.cc:366-370).  `DB::set`, `setSN`, `setRecordByKey`, `del`,
    `delSN` and `delRecord` (351-364,372-378,878-904) build a record and do the same. -/
def setRecord (db : DB K S) (r : Rec K) (sizeExceeded : Bool := false) : Status × DB K S :=
  if db.check .write ≠ .ok then (db.check .write, db)
  else
    let res := db.log.setSN r sizeExceeded
    (res.1, { db with log := res.2 })

/-- `DB::set` (src/jungle.cc:351-355). -/
def set (db : DB K S) (k : K) (v : Bytes) (se : Bool := false) : Status × DB K S :=
  db.setRecord { seq := NIL, type := .insertion, key := k, val := v } se

/-- `DB::setSN` (src/jungle.cc:357-364). -/
def setSN (db : DB K S) (n : Nat) (k : K) (v : Bytes) (se : Bool := false) : Status × DB K S :=
  db.setRecord { seq := n, type := .insertion, key := k, val := v } se

/-- `DB::setRecordByKey` (src/jungle.cc:372-378). -/
def setRecordByKey (db : DB K S) (r : Rec K) (se : Bool := false) : Status × DB K S :=
  db.setRecord { r with seq := NIL } se

/-- `DB::del` (src/jungle.cc:878-882). -/
def del (db : DB K S) (k : K) (se : Bool := false) : Status × DB K S :=
  db.setRecord { seq := NIL, type := .deletion, key := k } se

/-- `DB::delSN` (src/jungle.cc:884-895). -/
def delSN (db : DB K S) (n : Nat) (k : K) (se : Bool := false) : Status × DB K S :=
  db.setRecord { seq := n, type := .deletion, key := k } se

/-- `DB::delRecord` (src/jungle.cc:897-904). -/
def delRecord (db : DB K S) (r : Rec K) (se : Bool := false) : Status × DB K S :=
  db.setRecord { r with type := .deletion } se

/-- `DB::setRecordBatch` (src/jungle.cc:380-385). -/
def setRecordBatch (db : DB K S) (batch : List (Rec K)) : Status × DB K S :=
  if db.check .write ≠ .ok then (db.check .write, db)
  else
    let res := db.log.setMulti batch
    (res.1, { db with log := res.2 })

/-- What a concurrent reader works on after `j` records of a running `setRecordBatch`
    (src/log_mgr.cc:704-724): the barrier is set, the first `j` records are in. -/
def duringBatch (db : DB K S) (batch : List (Rec K)) (j : Nat) : DB K S :=
  { db with log := (({ db.log with barrier := db.log.getMaxSeqNum.getD 0 } : LogMgr K).setMultiInternal
      (batch.take j)).2 }

/-- `DB::sync` (src/jungle.cc:451-456). -/
def sync (db : DB K S) : Status × DB K S :=
  if db.check .flush ≠ .ok then (db.check .flush, db)
  else
    let res := db.log.sync
    (res.1, { db with log := res.2 })

/-- `DB::flushLogs` (src/jungle.cc:472-484). -/
def flushLogs (db : DB K S) (o : LogMgr.FlushOpts) (seq : Nat := NIL) : Status × DB K S :=
  if db.check .flush ≠ .ok then (db.check .flush, db)
  else
    let o' := if db.log.cfg.logSectionOnly then { o with purgeOnly := true } else o
    let res := db.log.flush o' seq db.table S.setBatch
    (res.1, { db with log := res.2.1, table := res.2.2 })

/-- `DB::checkpoint` (src/jungle.cc:558-567) with `LogMgr::checkpoint` (src/log_mgr.cc:1755-1776):
    mark the position, then sync. -/
def checkpoint (db : DB K S) : Status × DB K S × Option Nat :=
  let c := db.log.checkpoint
  let res := c.1.sync
  (res.1, { db with log := res.2 }, c.2)

/-- `DB::getMaxSeqNum` (src/jungle.cc:387-391). -/
def getMaxSeqNum (db : DB K S) : Option Nat := db.log.getMaxSeqNum

/-- `DB::getLastSyncedSeqNum` (src/jungle.cc:411-415). -/
def getLastSyncedSeqNum (db : DB K S) : Option Nat := db.log.getLastSyncedSeqNum

/-- `DB::getLastFlushedSeqNum` (src/jungle.cc:399-403). -/
def getLastFlushedSeqNum (db : DB K S) : Option Nat := db.log.getLastFlushedSeqNum

/-- `TableMgr::get` as the handle sees it: nothing in log-only mode
    (src/table_mgr.cc:563-566). -/
def tableGet (db : DB K S) (k : K) : Option (Rec K) :=
  if db.log.cfg.logSectionOnly then none else S.get db.table k

/-- `DB::get` on the live handle (src/jungle.cc:635-672). -/
def get (db : DB K S) (k : K) : Status × Option Bytes :=
  if db.check .read ≠ .ok then (db.check .read, none)
  else match db.log.get k with
  | (.ok, some r) => if r.isIns then (.ok, some r.val) else (.keyNotFound, none)
  | _ =>
    match db.tableGet k with
    | some r => if r.isIns then (.ok, some r.val) else (.keyNotFound, none)
    | none => (.keyNotFound, none)

/-- `DB::getRecordByKey` with `meta_only = false` on the live handle (src/jungle.cc:701-741). -/
def getRecordByKey (db : DB K S) (k : K) : Status × Option (Rec K) :=
  if db.check .read ≠ .ok then (db.check .read, none)
  else match db.log.get k with
  | (.ok, some r) => if r.isIns then (.ok, some r) else (.keyNotFound, none)
  | _ =>
    match db.tableGet k with
    | some r => if r.isIns then (.ok, some r) else (.keyNotFound, none)
    | none => (.keyNotFound, none)

/-- `DB::getRecord` (src/jungle.cc:689-699). -/
def getRecord (db : DB K S) (n : Nat) : Status × Option (Rec K) :=
  if db.check .read ≠ .ok then (db.check .read, none)
  else match db.log.getSN n with
  | (.ok, some r) => (.ok, some r)
  | (s, _) => (s, none)

/-- `DB::getSN` (src/jungle.cc:674-687). -/
def getSN (db : DB K S) (n : Nat) : Status × Option (K × Bytes) :=
  if db.check .read ≠ .ok then (db.check .read, none)
  else match db.log.getSN n with
  | (.ok, some r) => if r.isIns then (.ok, some (r.key, r.val)) else (.notKvPair, none)
  | (s, _) => (s, none)

end DB
end Jungle
