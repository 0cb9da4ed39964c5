/-
  The calls of the API that change a database, as data.
-/
import Verif.DB.Discard
import Verif.DB.Rollback

namespace Jungle
variable {K : Type} [LinearOrder K] {S : TableSys K}

/-- The calls that write, sync, flush or reorganise.  The last one stands for `compactL0`,
    `compactLevel`, `compactInplace`, `splitLevel` and `mergeLevel`: `f` is what the table manager
    does with the tables. -/
inductive WriteOp (K : Type) [LinearOrder K] (S : TableSys K)
  | set (k : K) (v : Bytes)
  | setSN (n : Nat) (k : K) (v : Bytes)
  | setRecord (r : Rec K)
  | setRecordByKey (r : Rec K)
  | setRecordBatch (b : List (Rec K))
  | del (k : K)
  | delSN (n : Nat) (k : K)
  | delRecord (r : Rec K)
  | sync
  | discardDirty (n : Nat)
  | flushLogs (o : LogMgr.FlushOpts) (n : Nat)
  | rollback (n : Nat)
  | checkpoint
  | compact (f : S.T → Status × S.T)

/-- `DB::compactL0`, `compactLevel`, `compactInplace`, `splitLevel`, `mergeLevel`
    (src/jungle.cc:569-628): the handle is checked, then the table manager works.  None of them,
    nor the functions of the table manager they call, looks at `readOnly`. -/
def DB.compactWith (db : DB K S) (f : S.T → Status × S.T) : Status × DB K S :=
  if db.check .compact ≠ .ok then (db.check .compact, db)
  else
    let res := f db.table
    (res.1, { db with table := res.2 })

/-- The call and its status. -/
def WriteOp.run (db : DB K S) : WriteOp K S → Status × DB K S
  | .set k v => db.set k v
  | .setSN n k v => db.setSN n k v
  | .setRecord r => db.setRecord r
  | .setRecordByKey r => db.setRecordByKey r
  | .setRecordBatch b => db.setRecordBatch b
  | .del k => db.del k
  | .delSN n k => db.delSN n k
  | .delRecord r => db.delRecord r
  | .sync => db.sync
  | .discardDirty n => db.discardDirty n
  | .flushLogs o n => db.flushLogs o n
  | .rollback n => db.rollback n
  | .checkpoint => ((db.checkpoint).1, (db.checkpoint).2.1)
  | .compact f => db.compactWith f

/-- A handle: the live one, or a snapshot.  A snapshot handle is built with the internals of its
    parent (`DB::DB(DB*, ...)`, src/jungle.cc:37-40: `p(_parent->p)`), and none of the functions
    above looks at `sn`; so a call on it is the same call on the parent. -/
inductive Handle
  | live
  | snapshot
  deriving DecidableEq, Repr

/-- The effect of a call through a handle on the database behind it. -/
def Handle.run (_ : Handle) (db : DB K S) (op : WriteOp K S) : Status × DB K S := op.run db

end Jungle
