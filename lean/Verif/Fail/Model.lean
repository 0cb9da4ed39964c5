/-
  Writes to table files that fail.  Three places drop the error:

  * `TableMgr::setTableFile` calls `TableFile::setBatch` and is a void function
    (src/table_set_batch.cc:27-50), so `TableMgr::setBatchHash` answers OK (199-296) although
    `TableFile::setBatch` stopped at the first record it could not write
    (src/table_file.cc:978-980);
  * `TableMgr::setTableFileOffset` goes on with the next record if a record cannot be read, and
    ignores the status of `setSingle` (src/table_set_batch.cc:99-113);
  * a group whose new file cannot be created is skipped (src/table_compaction.cc:427-431).
-/
import Verif.Table.Lsm
import Verif.DB.Model

namespace Jungle

namespace TMgr
variable {K : Type} [LinearOrder K] [OrderBot K]

/-- `TableMgr::setBatch` (src/table_set_batch.cc:173-296).  `fail p = some n`: the write to the table
    of partition `p` stops, and a reader finds the records among the first `n` of the batch.  The
    records before the one that failed are not committed (src/table_file.cc:978-1008); whether a reader
    sees them is up to the storage engine, `n` may be 0. -/
def setBatchF (c : TCfg K) (fail : Nat → Option Nat) (t : TMgr K) (R : List (Rec K)) : TMgr K :=
  (List.range t.parts).foldl (fun t p => setBatchPart c t
    (match fail p with
     | none => R
     | some n => R.take n) p) t

/-- What becomes of a record in the scan of a compaction: `bad m`, the new file with min key `m`
    cannot be created (src/table_compaction.cc:427-431); `lost k`, the record cannot be read or
    written (src/table_set_batch.cc:99-113). -/
def written (bad lost : K → Bool) (a : Tgt K × Rec K) : Bool :=
  !(a.1.fresh && bad a.1.minKey) && !lost a.2.key

/-- The assignment of the records of a victim to tables (src/table_compaction.cc:225-393). -/
def asgOf (l : List (Tab K)) (vmin : K) (rs : SMap K (Rec K)) (full : Nat → Bool) :
    List (Tgt K × Rec K) :=
  let tables := tablesRange l vmin (rs.getLast?.map (·.1))
  let fg := firstGroup tables vmin
  assign (maxKeyOf tables) full 0 fg.1 fg.2 rs

/-- The keys of the victim that are written nowhere. -/
def unwritten (l : List (Tab K)) (vmin : K) (rs : SMap K (Rec K)) (full : Nat → Bool)
    (bad lost : K → Bool) : List K :=
  ((asgOf l vmin rs full).filter (fun a => !written bad lost a)).map (·.2.key)

/-- The destination level after a compaction with failures (src/table_compaction.cc:83-497).
    Simplification: the numbers of the files that could not be created are used again; in the code
    they are skipped. -/
def mergeIntoF (l : List (Tab K)) (num : Nat) (vmin : K) (rs : SMap K (Rec K)) (purge : Bool)
    (full : Nat → Bool) (bad lost : K → Bool) : List (Tab K) × Nat :=
  let fg := firstGroup (tablesRange l vmin (rs.getLast?.map (·.1))) vmin
  let asg := (asgOf l vmin rs full).filter (written bad lost)
  let ms := (freshKeys fg.1 (asgOf l vmin rs full)).filter (fun m => !bad m)
  ((freshTables num ms asg).reverse.foldl addTable (writeOld l asg purge), num + ms.length)

/-- Second half of `TableMgr::compactL0` (src/table_compaction.cc:940-960) with failures.  It answers
    OK: `compactLevelItr` returns a fresh `Status()` (src/table_compaction.cc:562). -/
def compactL0EndF (c : TCfg K) (t : TMgr K) (p : Nat) (full : Nat → Bool) (bad lost : K → Bool) :
    TMgr K :=
  match t.srcOf p with
  | none => t
  | some v =>
    match (if t.lv.isEmpty then [[]] else t.lv) with
    | [] => t
    | l :: ls =>
      let m := mergeIntoF l t.nextNum v.minKey v.recs (c.purge && ls.isEmpty) full bad lost
      { t with nextNum := m.2, lv := m.1 :: ls, l0 := removeTable t.l0 v.number }

/-- The keys of the victim of partition `p` that the compaction writes nowhere. -/
def unwrittenL0 (t : TMgr K) (p : Nat) (full : Nat → Bool) (bad lost : K → Bool) : List K :=
  match t.srcOf p with
  | none => []
  | some v => unwritten ((if t.lv.isEmpty then [[]] else t.lv).headD []) v.minKey v.recs full bad lost

/-- The tables without the victim of partition `p`. -/
def withoutSrc (t : TMgr K) (p : Nat) : TMgr K :=
  match t.srcOf p with
  | none => t
  | some v => { t with l0 := removeTable t.l0 v.number }

end TMgr

/-- `DB::flushLogs` (src/jungle.cc:472-484) when writes to the tables fail: `LogMgr::flush`
    (src/log_mgr.cc:1361-1593) learns nothing of it. -/
def DB.flushLogsF {K : Type} [LinearOrder K] [OrderBot K] {c : TCfg K} {parts : Nat} {hp : 0 < parts}
    (db : DB K (Lsm c parts hp)) (fail : Nat → Option Nat) (o : LogMgr.FlushOpts) (seq : Nat := NIL) :
    Status × DB K (Lsm c parts hp) :=
  if db.check .flush ≠ .ok then (db.check .flush, db)
  else
    let o' := if db.log.cfg.logSectionOnly then { o with purgeOnly := true } else o
    let res := db.log.flush o' seq db.table (fun t R _ => TMgr.setBatchF c fail t R)
    (res.1, { db with log := res.2.1, table := res.2.2 })

end Jungle
