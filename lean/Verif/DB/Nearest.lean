/-
  Model of the nearest-record search: `DB::getNearestRecordByKey` (src/jungle.cc:743-833) and what
  it calls.

  In the code a record with an empty key stands for "nothing found yet" (src/log_mgr.cc:963,
  src/table_mgr.cc:684); here that is `none`, so the model is about keys of at least one byte.
-/
import Verif.DB.Search

set_option linter.unusedSectionVars false

namespace Jungle
open Iter

/-- `SearchOptions::isGreater`, `isSmaller` (include/libjungle/params.h:106-170). -/
def SOpt.isGreater : SOpt → Bool
  | .greaterOrEqual | .greater => true
  | _ => false
def SOpt.isSmaller : SOpt → Bool
  | .smallerOrEqual | .smaller => true
  | _ => false

section
variable {K : Type} [LinearOrder K]

/-- `update_cur_nearest` of the log section (src/log_mgr.cc:961-975). -/
def nearUpd (opt : SOpt) (cur : Option (Rec K)) (r : Rec K) : Option (Rec K) :=
  match cur with
  | none => some r
  | some x =>
    if opt.isGreater then (if r.key < x.key then some r else some x)
    else if opt.isSmaller then (if x.key < r.key then some r else some x)
    else some x

/-- The loops over the log files in `LogMgr::getNearest` (src/log_mgr.cc:1006-1016 with
    `logOnly`, 1028-1056), newest file first: the nearest record so far and the exact match if
    that ended the loop. -/
def nearLoop (logOnly : Bool) (barrier : Nat) (key : K) (opt : SOpt) :
    List (LogFile K) → Option (Rec K) → Option (Rec K) × Option (Rec K)
  | [], cur => (cur, none)
  | f :: fs, cur =>
    let c := if logOnly then NIL
      else if barrier ≠ 0 then min f.mem.maxSeqNum barrier else f.mem.maxSeqNum
    match f.mem.getRecordByKey c key false true opt with
    | (.ok, some r) =>
      let cur' := nearUpd opt cur r
      if (logOnly || opt.exactAllowed) = true ∧ cur'.map (·.key) = some key then (cur', some r)
      else nearLoop logOnly barrier key opt fs cur'
    | _ => nearLoop logOnly barrier key opt fs cur

/-- `LogMgr::getNearest` (src/log_mgr.cc:940-1078) on the live handle. -/
def LogMgr.getNearest (l : LogMgr K) (key : K) (opt : SOpt) : Status × Option (Rec K) :=
  let minLog := l.getLastFlushedLog
  if minLog = NIL ∨ l.maxNum = NIL then (.notInitialized, none)
  else
    let files := if l.cfg.logSectionOnly
      then l.files.filter (fun f => decide (minLog ≤ f.num ∧ f.num ≤ l.maxNum))
      else l.fileRange minLog l.maxNum
    match nearLoop l.cfg.logSectionOnly l.barrier key opt files.reverse none with
    | (_, some r) => (.ok, some r)
    | (none, none) => (.keyNotFound, none)
    | (some x, none) =>
      if opt.isGreater ∧ x.key < key then (.keyNotFound, none)
      else if opt.isSmaller ∧ key < x.key then (.keyNotFound, none)
      else (.ok, some x)

/-- `TableFile::getNearest` (src/table_file.cc:1204-1338) on the live handle, without the lookup
    booster. -/
def Tab.getNearest (x : Tab K) (key : K) (opt : SOpt) : Option (Rec K) :=
  match opt with
  | .greater => nearestUp x.recs true key
  | .smallerOrEqual => nearestDown x.recs false key
  | .smaller => nearestDown x.recs true key
  | _ => nearestUp x.recs false key

/-- `TableManifest::getTablesNearest` for a level above 0 (src/table_manifest.cc:746-772). -/
def tablesNearest (l : List (Tab K)) (key : K) (opt : SOpt) : List (Tab K) :=
  match fromCursor l key with
  | [] => []
  | x :: s =>
    (if opt.isSmaller then (l.take (l.length - (s.length + 1))).getLast?.toList else []) ++ [x] ++
      (if opt.isGreater then s.head?.toList else [])

/-- `update_cur_nearest` of the table section (src/table_mgr.cc:682-706). -/
def nearUpdT (opt : SOpt) (cur : Option (Rec K)) (r : Rec K) : Option (Rec K) :=
  match cur with
  | none => some r
  | some x =>
    if (opt.isGreater = true ∧ r.key < x.key) ∨ (opt.isSmaller = true ∧ x.key < r.key) then some r
    else if (opt.isGreater = false ∧ opt.isSmaller = false) ∨ r.key = x.key then
      (if x.seq < r.seq then some r else some x)
    else some x

variable [OrderBot K]

/-- The tables `TableMgr::getNearest` reads (src/table_mgr.cc:714-717). -/
def TMgr.nearTables (t : TMgr K) (key : K) (opt : SOpt) : List (Tab K) :=
  t.tablesByHash t.parts ++ t.lv.flatMap (fun l => tablesNearest l key opt)

/-- `TableMgr::getNearest` (src/table_mgr.cc:658-750) on the live handle. -/
def TMgr.getNearest (t : TMgr K) (key : K) (opt : SOpt) : Option (Rec K) :=
  ((t.nearTables key opt).filterMap (fun x => x.getNearest key opt)).foldl (nearUpdT opt) none

variable {c : TCfg K} {parts : Nat} {hp : 0 < parts}

/-- The choice between log and table (src/jungle.cc:776-822): true for the log. -/
def chooseLog (opt : SOpt) (a b : Rec K) : Bool :=
  if a.key = b.key then decide (b.seq ≤ a.seq)
  else if opt.isGreater then decide (a.key < b.key)
  else if opt.isSmaller then decide (b.key < a.key)
  else true

/-- `DB::getNearestRecordByKey` (src/jungle.cc:743-833) on the live handle. -/
def DB.getNearest (db : DB K (Lsm c parts hp)) (key : K) (opt : SOpt) : Status × Option (Rec K) :=
  if db.check .read ≠ .ok then (db.check .read, none)
  else if opt = .equal then (.invalidParameters, none)
  else
    let tab := if db.log.cfg.logSectionOnly then none else TMgr.getNearest (db.table : TMgr K) key opt
    let fin := fun lg : Option (Rec K) => match lg, tab with
      | none, none => (Status.keyNotFound, none)
      | some a, none => (.ok, some a)
      | none, some b => (.ok, some b)
      | some a, some b => (.ok, some (if chooseLog opt a b then a else b))
    match db.log.getNearest key opt with
    | (.ok, lg) => fin lg
    | (.keyNotFound, _) => fin none
    | (s, _) => (s, none)

end
end Jungle
