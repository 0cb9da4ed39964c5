/-
  Model of the prefix search and of the nearest-record search: `DB::getRecordsByPrefix`,
  `DB::getNearestRecordByKey` (src/jungle.cc:743-876) and what they call.
-/
import Verif.Iter.Handle

set_option linter.unusedSectionVars false

namespace Jungle
open Iter

/-- A prefix: the smallest key that matches and the test `is_prefix_match`
    (src/memtable.cc:715-719, src/table_file.cc:1364-1368, src/log_mgr.cc:1168-1172).  The fields say
    what the search uses of the order of byte strings: a matching key is not below the prefix, and
    everything between the prefix and a matching key matches; `Verif/Props/Search.lean` gives the
    instance for byte strings. -/
structure Pfx (K : Type) [LinearOrder K] where
  key : K
  hit : K → Bool
  ge : ∀ k, hit k = true → key ≤ k
  conv : ∀ a b, key ≤ a → a ≤ b → hit b = true → hit a = true

/-- The user's callback: `cb out r` is true if it answers STOP to record `r` after the records `out`. -/
abbrev Cb (K : Type) := List (Rec K) → Rec K → Bool

section
variable {K : Type} [LinearOrder K]

/-! ### prefix search -/

/-- The loop of `LogMgr::getPrefix` (src/log_mgr.cc:1176-1193).  The first argument is fuel. -/
def logPrefixLoop (P : Pfx K) (cb : Cb K) : Nat → LogIt K → List (Rec K) → Status × List (Rec K)
  | 0, _, out => (.undefinedBehaviour, out)
  | n + 1, it, out =>
    match logOps.get it with
    | none => (.ok, out)
    | some e =>
      if P.hit e.key = false then (.ok, out)
      else if cb out e then (.operationStopped, out ++ [e])
      else match logOps.step .fwd it with
        | (.ok, it') => logPrefixLoop P cb n it' (out ++ [e])
        | _ => (.ok, out ++ [e])

/-- `LogMgr::getPrefix` (src/log_mgr.cc:1157-1196) on the live handle. -/
def LogMgr.getPrefix (l : LogMgr K) (P : Pfx K) (cb : Cb K) : Status × List (Rec K) :=
  let it := logItr l (some P.key) none
  logPrefixLoop P cb (logOps.left .fwd it + 1) it []

/-- `fdb_get_nearest` with FDB_GET_GREATER_OR_EQUAL (`strict = false`) or FDB_GET_GREATER. -/
def nearestUp (recs : SMap K (Rec K)) (strict : Bool) (k : K) : Option (Rec K) :=
  (List.find? (fun e => if strict then decide (k < e.1) else decide (k ≤ e.1)) recs).map (·.2)

/-- `fdb_get_nearest` with FDB_GET_SMALLER_OR_EQUAL (`strict = false`) or FDB_GET_SMALLER. -/
def nearestDown (recs : SMap K (Rec K)) (strict : Bool) (k : K) : Option (Rec K) :=
  (List.find? (fun e => if strict then decide (e.1 < k) else decide (e.1 ≤ k)) recs.reverse).map (·.2)

/-- The loop of `TableFile::getPrefix` (src/table_file.cc:1384-1445); the first argument is fuel. -/
def tabPrefixLoop (P : Pfx K) (cb : Cb K) (recs : SMap K (Rec K)) :
    Nat → Bool → K → List (Rec K) → Status × List (Rec K)
  | 0, _, _, out => (.undefinedBehaviour, out)
  | n + 1, strict, last, out =>
    match nearestUp recs strict last with
    | none => (.keyNotFound, out)
    | some r =>
      if P.hit r.key = false then (.ok, out)
      else if cb out r then (.operationStopped, out ++ [r])
      else tabPrefixLoop P cb recs n true r.key (out ++ [r])

/-- `TableFile::getPrefix` (src/table_file.cc:1339-1449) on the live handle, without Bloom filter. -/
def Tab.getPrefix (x : Tab K) (P : Pfx K) (cb : Cb K) (out : List (Rec K)) : Status × List (Rec K) :=
  tabPrefixLoop P cb x.recs (x.recs.length + 1) false P.key out

/-- The node found by `skiplist_find_smaller_or_equal`, or the first one, and the nodes after it. -/
def fromCursor : List (Tab K) → K → List (Tab K)
  | [], _ => []
  | [x], _ => [x]
  | x :: y :: xs, k => if y.minKey ≤ k then fromCursor (y :: xs) k else x :: y :: xs

/-- `TableManifest::getTablesPrefix` for a level above 0 (src/table_manifest.cc:803-838). -/
def tablesPrefix (l : List (Tab K)) (P : Pfx K) : List (Tab K) :=
  match fromCursor l P.key with
  | [] => []
  | [x] => [x]
  | x :: y :: _ => if P.hit y.minKey then [x, y] else [x]

/-- The loop over the tables of a level in `TableMgr::getPrefix` (src/table_mgr.cc:770-779); the
    flag says that an intolerable error was found, which a STOP of the callback is, too. -/
def scanPrefix (P : Pfx K) (cb : Cb K) : List (Tab K) → Status → List (Rec K) →
    Bool × Status × List (Rec K)
  | [], s, out => (false, s, out)
  | x :: xs, _, out =>
    match x.getPrefix P cb out with
    | (.ok, out') => scanPrefix P cb xs .ok out'
    | (.keyNotFound, out') => scanPrefix P cb xs .keyNotFound out'
    | (s, out') => (true, s, out')

/-- The loop over the levels in `TableMgr::getPrefix` (src/table_mgr.cc:761-784); `ls` are the
    tables of each level. -/
def levelsPrefix (P : Pfx K) (cb : Cb K) : List (List (Tab K)) → Status → List (Rec K) →
    Status × List (Rec K)
  | [], s, out => (s, out)
  | l :: ls, _, out =>
    match scanPrefix P cb l .ok out with
    | (true, s, out') => (s, out')
    | (false, s, out') => levelsPrefix P cb ls s out'

/-- The tables `TableMgr::getPrefix` reads in each level; `ph` is the hash of the prefix if
    `customLenForHash` applies to it (src/table_manifest.cc:785-801). -/
def TMgr.prefixTables [OrderBot K] (t : TMgr K) (P : Pfx K) (ph : Option Nat) : List (List (Tab K)) :=
  t.tablesByHash (match ph with | some h => h % t.parts | none => t.parts) ::
    t.lv.map (fun l => tablesPrefix l P)

/-- `TableMgr::getPrefix` (src/table_mgr.cc:752-785) on the live handle; the callback has seen
    `out`. -/
def TMgr.getPrefix [OrderBot K] (t : TMgr K) (P : Pfx K) (ph : Option Nat) (cb : Cb K) (out : List (Rec K)) :
    Status × List (Rec K) :=
  levelsPrefix P cb (t.prefixTables P ph) .ok out

variable [OrderBot K] {c : TCfg K} {parts : Nat} {hp : 0 < parts}

/-- `DB::getRecordsByPrefix` (src/jungle.cc:835-876) on the live handle: the status and the records
    the callback was called with. -/
def DB.getRecordsByPrefix (db : DB K (Lsm c parts hp)) (P : Pfx K) (ph : Option Nat) (cb : Cb K) :
    Status × List (Rec K) :=
  if db.check .read ≠ .ok then (db.check .read, [])
  else
    let fin := fun out : List (Rec K) => if out = [] then Status.keyNotFound else Status.ok
    let tabs := fun out : List (Rec K) =>
      if db.log.cfg.logSectionOnly then (fin out, out)
      else match TMgr.getPrefix (db.table : TMgr K) P ph cb out with
        | (.ok, out') => (fin out', out')
        | (.operationStopped, out') => (fin out', out')
        | (.keyNotFound, out') => (fin out', out')
        | (s, out') => (s, out')
    match db.log.getPrefix P cb with
    | (.operationStopped, out) => (.ok, out)
    | (.ok, out) => tabs out
    | (.keyNotFound, out) => tabs out
    | (s, out) => (s, out)

end
end Jungle
