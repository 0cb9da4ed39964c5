/-
  Model of snapshot handles (src/jungle.cc): listing checkpoints, opening a snapshot, reading from
  it while the database goes on.
-/
import Verif.Table.Marks
import Verif.DB.CrashLemmas

set_option linter.unusedSectionVars false

namespace Jungle
open Spec
variable {K : Type} [LinearOrder K] [OrderBot K] {c : TCfg K} {parts : Nat} {hp : 0 < parts} {keep : Nat}

/-- `DB::SnapInternal` (src/db_internal.h) with what the snapshot holds: the log files (none: the
    pointer was never set) and the handles in the table files. -/
structure Snap (K : Type) [LinearOrder K] where
  chk : Nat
  logs : Option (List (LogFile K))
  tabs : TSnap K

/-- Insertion into a `std::set`. -/
def setInsert (n : Nat) : List Nat → List Nat
  | [] => [n]
  | m :: l => if n < m then n :: m :: l else if n = m then m :: l else m :: setInsert n l

/-- `DB::getCheckpoints` (src/jungle.cc:425-449).  `keep` is `maxKeepingCheckpoints`. -/
def DB.getCheckpoints (db : DB K (LsmC c parts hp keep)) : Status × List Nat :=
  if db.check .read ≠ .ok then (db.check .read, [])
  else
    let log := db.log.getAvailCheckpoints
    let all := if log.length < keep then log ++ CMgr.availCheckpoints db.table else log
    let sorted := all.foldl (fun s n => setInsert n s) []
    (.ok, sorted.drop (sorted.length - keep))

/-- `LogMgr::openSnapshot` (src/log_mgr.cc:385-450) with the files themselves. -/
def LogMgr.snapFiles (l : LogMgr K) (chk lastFlush : Nat) : Option (List (LogFile K)) :=
  (l.openSnapshot chk lastFlush).map (fun ns => l.files.filter (fun f => decide (f.num ∈ ns)))

/-- `DB::openSnapshot` after the number of the snapshot is fixed (src/jungle.cc:305-314).  The
    statuses of the two calls are ignored, as in the code. -/
def DB.snapAt (db : DB K (LsmC c parts hp keep)) (chk : Nat) : Snap K :=
  { chk := chk
    logs := db.log.snapFiles chk (db.log.getLastFlushedSeqNum.getD 0)
    tabs := CMgr.openSnapshot db.table chk }

/-- `DB::openSnapshot` (src/jungle.cc:280-317), nothing else running. -/
def DB.openSnapshot (db : DB K (LsmC c parts hp keep)) (checkpoint : Nat) : Status × Option (Snap K) :=
  if db.check .read ≠ .ok then (db.check .read, none)
  else if checkpoint ≠ 0 then
    if db.getCheckpoints.2.contains checkpoint then (.ok, some (db.snapAt checkpoint))
    else (.invalidCheckpoint, none)
  else (.ok, some (db.snapAt (db.log.getMaxSeqNum.getD 0)))

/-- The log files of a snapshot are shared with the database (`LogFileInfo` pointers,
    src/log_mgr.cc:415-440): as long as the database has the file too, the snapshot sees what is
    written to it; a file the database has removed stays as it was. -/
def Snap.follow (sn : Snap K) (l : LogMgr K) : Snap K :=
  { sn with logs := sn.logs.map (fun fs => fs.map (fun f => (l.file? f.num).getD f)) }

/-- `DB::get` on a snapshot handle (src/jungle.cc:635-672); a null list of log files is dereferenced
    (src/log_mgr.cc:870-875). -/
def DB.snapGet (db : DB K (LsmC c parts hp keep)) (sn : Snap K) (k : K) : Status × Option Bytes :=
  if db.check .read ≠ .ok then (db.check .read, none)
  else match sn.logs with
  | none => (.undefinedBehaviour, none)
  | some fs =>
    match LogMgr.getSnap sn.chk fs k with
    | (.ok, some r) => if r.isIns then (.ok, some r.val) else (.keyNotFound, none)
    | _ =>
      if db.log.cfg.logSectionOnly then (.keyNotFound, none)
      else match CMgr.snapGet c db.table sn.tabs k with
      | .ok (some r) => if r.isIns then (.ok, some r.val) else (.keyNotFound, none)
      | .ok none => (.keyNotFound, none)
      | .error .ok => (.ok, some [])
      | .error s => (s, none)

/-- One call on the parent database that the snapshot must not notice: a write, a batch, a sync, a
    flush or a checkpoint. `Act db h db' h'`: the call leads from `db` to `db'`; `h` and `h'` are the
    accepted writes before and after. -/
inductive Act {S : TableSys K} : DB K S → List (Rec K) → DB K S → List (Rec K) → Prop
  | set {db h} (r : Rec K) (se : Bool) {db'} : db.Fits 1 → db.FreshSeq r.seq →
      (db.getMaxSeqNum = none → se = false) → db.setRecord r se = (.ok, db') →
      Act db h db' (h ++ number (db.getMaxSeqNum.getD 0) [r])
  | setRefused {db h} (r : Rec K) (se : Bool) {st db'} : db.setRecord r se = (st, db') → st ≠ .ok →
      Act db h db' h
  | batch {db h} (b : List (Rec K)) {db'} : db.Fits b.length → (∀ r ∈ b, r.seq ≤ NIL) →
      db.setRecordBatch b = (.ok, db') → Act db h db' (h ++ number (db.getMaxSeqNum.getD 0) b)
  | batchRefused {db h} (b : List (Rec K)) {st db'} : db.Fits b.length → (∀ r ∈ b, r.seq ≤ NIL) →
      db.setRecordBatch b = (st, db') → st ≠ .ok → Act db h db' h
  | sync {db h st db'} : db.sync = (st, db') → Act db h db' h
  | flush {db h} (o : LogMgr.FlushOpts) (m : Nat) {st db'} : o.purgeOnly = false → db.SafeFlush o m →
      db.flushLogs o m = (st, db') → Act db h db' h
  | checkpoint {db h db' n} : db.checkpoint = (.ok, db', n) → Act db h db' h
  | flags {db h} (cl r : Bool) : Act db h { db with closing := cl, rollbackInProgress := r } h

/-- The snapshot `sn` while the parent database goes from `db` to `db'`. -/
inductive Acts : DB K (LsmC c parts hp keep) → List (Rec K) → Snap K →
    DB K (LsmC c parts hp keep) → List (Rec K) → Snap K → Prop
  | refl {db h sn} : Acts db h sn db h sn
  | step {db h sn db1 h1 sn1 db2 h2} : Acts db h sn db1 h1 sn1 → Act db1 h1 db2 h2 →
      Acts db h sn db2 h2 (sn1.follow db2.log)

theorem Act.preach {S : TableSys K} {db db' : DB K S} {h h' : List (Rec K)} (ha : Act db h db' h') {cs : List PMani} {n : Nat}
    (hr : PReach ⟨db, cs⟩ h n) : ∃ cs' n', PReach ⟨db', cs'⟩ h' n' := by
  cases ha with
  | set r se h1 h2 h3 h4 => exact ⟨_, _, PReach.set r se hr h1 h2 h3 h4⟩
  | setRefused r se h1 h2 => exact ⟨_, _, PReach.setRefused r se hr h1 h2⟩
  | batch b h1 h2 h3 => exact ⟨_, _, PReach.batch b hr h1 h2 h3⟩
  | batchRefused b h1 h2 h3 h4 => exact ⟨_, _, PReach.batchRefused b hr h1 h2 h3 h4⟩
  | @sync st _ h1 =>
    by_cases hs : st = .ok
    · subst hs; exact ⟨_, _, PReach.sync hr h1⟩
    · exact ⟨_, _, PReach.syncRefused hr h1 hs⟩
  | @flush o m st _ h1 h2 h3 =>
    by_cases hs : st = .ok
    · subst hs; exact ⟨_, _, PReach.flush o m hr h1 h2 h3⟩
    · exact ⟨_, _, PReach.flushRefused o m hr h1 h2 h3 hs⟩
  | checkpoint h1 => exact ⟨_, _, PReach.checkpoint hr h1⟩
  | flags cl r => exact ⟨_, _, PReach.flags cl r hr⟩

end Jungle
