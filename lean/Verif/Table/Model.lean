/-
  Model of the table section: src/table_mgr.cc, src/table_set_batch.cc, src/table_manifest.cc,
  src/table_compaction.cc, src/table_split.cc and the part of src/table_file.cc they use.

  Simplifications common to the whole file:
  * a ForestDB file is a finite map from keys to documents; `fdb_set` replaces the document of a
    key whatever the sequence numbers are, `fdb_del` removes it, and the files are always readable
    and writable (the failure branches of the calls are not modelled);
  * `get` does not ask the Bloom filters (`bloomFilterBitsPerUnit = 0`, the default); `Table/BloomGet` is the
    search that does.  Lookup boosters have their own model;
  * size limits, record counts and victim choices are left open: they appear as arbitrary
    parameters of the operations.
-/
import Verif.SMap
import Verif.Spec.KV
import Mathlib.Order.BoundedOrder.Basic

namespace Jungle

/-- `TableInfo::Status` (src/table_manifest.h:44-49); COMPACT_DST is never assigned. -/
inductive TStatus
  | normal | compactSrc
  deriving DecidableEq, Repr

/-- `TableInfo` with the contents of its `TableFile` (src/table_manifest.h:43-166,
    src/table_file.h).  `added` are the keys given to its Bloom filter, newest first.  `minKey` is the empty buffer (`⊥`) for tables of level 0. -/
structure Tab (K : Type) where
  number : Nat
  hashNum : Nat := 0
  minKey : K
  status : TStatus := .normal
  prevReq : Bool := false
  recs : SMap K (Rec K) := []
  added : List K := []

/-- What the table section takes from `DBConfig`: the hash of a key
    (`get_murmur_hash` of `get_data_to_hash`, src/internal_helper.h:499-522) and
    `purgeDeletedDocImmediately`. -/
structure TCfg (K : Type) where
  hash : K → Nat
  purge : Bool := true

/-- `TableMgr` with its `TableManifest`: number of level-0 partitions, the next table number,
    level 0 and the levels 1, 2, … in the order of their skiplists
    (src/table_mgr.h, src/table_manifest.h). -/
structure TMgr (K : Type) where
  parts : Nat
  nextNum : Nat
  l0 : List (Tab K)
  lv : List (List (Tab K))

namespace Tab
variable {K : Type} [LinearOrder K]

/-- `TableFile::get` on the live handle (src/table_file.cc:1076-1202): a tombstone is a record. -/
def get (t : Tab K) (k : K) : Option (Rec K) := t.recs.find? k

/-- `TableFile::setSingle` (src/table_file.cc:797-937).  `purge` is the condition
    `purgeDeletedDocImmediately && tableInfo && tableInfo->level && is_last_level`.  The key goes to the
    Bloom filter `if (rec.isIns())` (922-929); a record read with `getByOffset` always has the type
    INSERTION (src/table_file.cc:1574-1576), `moved` is for those. -/
def setSingle (t : Tab K) (r : Rec K) (purge : Bool) (moved : Bool := false) : Tab K :=
  { t with
    recs := if purge && r.isDel then t.recs.erase r.key else t.recs.insert r.key r
    added := if moved || !r.isDel then r.key :: t.added else t.added }

/-- `TableFile::setBatch` with a target hash (src/table_file.cc:939-1074).  Checkpoints are not
    part of this model. -/
def setBatch (c : TCfg K) (parts : Nat) (p : Nat) (t : Tab K) (R : List (Rec K)) : Tab K :=
  R.foldl (fun t r => if c.hash r.key % parts ≠ p then t else if r.isCmd then t
    else t.setSingle r false) t

/-- `TableFile::getMaxKey` (src/table_file.cc:1520-1555): nothing for an empty table. -/
def maxKey (t : Tab K) : Option K := t.recs.getLast?.map (·.1)

end Tab

namespace TMgr
variable {K : Type} [LinearOrder K] [OrderBot K]

/-- `createNewTableFile` + `addTableFile` for level 0 in a new database
    (src/table_mgr.cc:262-291); every new node goes to the front of the skiplist because all
    min keys are equal (src/skiplist.cc:403-575). -/
def initL0 : Nat → Nat → List (Tab K) → List (Tab K)
  | 0, _, acc => acc
  | n + 1, i, acc => initL0 n (i + 1) ({ number := i, hashNum := i, minKey := ⊥ } :: acc)

/-- `TableMgr::init` of a new database (src/table_mgr.cc:262-296). -/
def init (parts : Nat) : TMgr K :=
  { parts := parts, nextNum := parts, l0 := initL0 parts 0 [], lv := [] }

/-- `TableManifest::getTablesByHash` (src/table_manifest.cc:569-600): every table whose hash
    matches, or all of them when the number given is not a partition. -/
def tablesByHash (t : TMgr K) (p : Nat) : List (Tab K) :=
  t.l0.filter (fun x => decide (p ≥ t.parts) || decide (x.hashNum = p))

/-- The loop of `getSmallestNormalTable` (src/table_mgr.cc:827-842). -/
def smallestNormal : List (Tab K) → Option (Tab K) → Option (Tab K)
  | [], acc => acc
  | x :: xs, acc =>
    smallestNormal xs
      (if x.status = .normal then
        match acc with
        | none => some x
        | some a => if x.number < a.number then some x else some a
      else acc)

/-- Apply `f` to the table with the given number. -/
def modify (l : List (Tab K)) (n : Nat) (f : Tab K → Tab K) : List (Tab K) :=
  l.map (fun x => if x.number = n then f x else x)

/-- One partition of `TableMgr::setBatchHash` (src/table_set_batch.cc:227-270): the records of
    partition `p` go to its smallest normal table; without one they are skipped. -/
def setBatchPart (c : TCfg K) (t : TMgr K) (R : List (Rec K)) (p : Nat) : TMgr K :=
  match smallestNormal (t.tablesByHash p) none with
  | none => t
  | some x => { t with l0 := modify t.l0 x.number (fun y => y.setBatch c t.parts p R) }

/-- `TableMgr::setBatch` (src/table_set_batch.cc:173-296).  Simplification: the partitions are
    written one after the other; the writers of different partitions touch different tables. -/
def setBatch (c : TCfg K) (t : TMgr K) (R : List (Rec K)) : TMgr K :=
  (List.range t.parts).foldl (fun t p => setBatchPart c t R p) t

/-- `skiplist_find_smaller_or_equal` on the min keys, with the node before the one found
    (src/table_manifest.cc:629-651). -/
def floor : Option (Tab K) → List (Tab K) → K → Option (Tab K × Option (Tab K))
  | _, [], _ => none
  | prev, x :: xs, k =>
    if x.minKey ≤ k then
      match floor (some x) xs k with
      | some r => some r
      | none => some (x, prev)
    else none

/-- `TableManifest::getTablesPoint` for a level above 0 (src/table_manifest.cc:627-653); the
    stacks of the tiering mode are always empty. -/
def tablesPoint (l : List (Tab K)) (k : K) : List (Tab K) :=
  match floor none l k with
  | none => []
  | some (x, prev) => x :: (if x.prevReq then prev.toList else [])

/-- The loop over the tables of one level in `TableMgr::get` (src/table_mgr.cc:602-637).  `none`
    is `found_intolerable_error`: it is also set when a second table has the key, but not with a
    higher sequence number. -/
def scan (k : K) : List (Tab K) → Option (Rec K) → Option (Option (Rec K))
  | [], latest => some latest
  | x :: xs, latest =>
    match x.get k with
    | none => scan k xs latest
    | some r =>
      match latest with
      | none => scan k xs (some r)
      | some l => if l.seq < r.seq then scan k xs (some r) else none

/-- The record the caller of `TableMgr::get` is left with when the status is OK but nothing was
    copied out (src/table_mgr.cc:639-643): the fields of a new `Record`
    (include/libjungle/record.h:54-58). -/
def blank (k : K) : Rec K := { seq := NIL, type := .insertion, key := k }

/-- Levels 1, 2, … of `TableMgr::get` (src/table_mgr.cc:573-647). -/
def getLevels (k : K) : List (List (Tab K)) → Option (Rec K)
  | [] => none
  | l :: ls =>
    match scan k (tablesPoint l k) none with
    | none => some (blank k)
    | some (some r) => some r
    | some none => getLevels k ls

/-- `TableMgr::get` on the live handle (src/table_mgr.cc:559-656). -/
def get (c : TCfg K) (t : TMgr K) (k : K) : Option (Rec K) :=
  let ts := t.tablesByHash (c.hash k % t.parts)
  let sm := smallestNormal ts none
  match sm.bind (·.get k) with
  | some r => some r
  | none =>
    let others := match sm with
      | none => ts
      | some x => ts.filter (fun y => decide (y.number ≠ x.number))
    match scan k others none with
    | none => some (blank k)
    | some (some r) => some r
    | some none => getLevels k t.lv

/-- Start of `TableManifest::getTablesRange` (src/table_manifest.cc:687-692): the node before the
    start, and the nodes from the last one not above `k` on, or all of them. -/
def fromFloor : Option (Tab K) → List (Tab K) → K → Option (Tab K) × List (Tab K)
  | prev, [], _ => (prev, [])
  | prev, [x], _ => (prev, [x])
  | prev, x :: y :: xs, k =>
    if y.minKey ≤ k then fromFloor (some x) (y :: xs) k else (prev, x :: y :: xs)

/-- `TableManifest::getTablesRange` for a level above 0 (src/table_manifest.cc:674-729); an empty
    upper bound means no bound. -/
def tablesRange (l : List (Tab K)) (lo : K) (hi : Option K) : List (Tab K) :=
  let f := fromFloor none l lo
  (match f.2 with
   | x :: _ => if x.prevReq then f.1.toList else []
   | [] => []) ++
  f.2.filter (fun x => match hi with | none => true | some h => decide (x.minKey ≤ h))

/-- `skiplist_insert` by min key (`TableManifest::addTableFile`, src/table_manifest.cc:468-497):
    the new node goes in front of the first one that is not smaller. -/
def addTable : List (Tab K) → Tab K → List (Tab K)
  | [], x => [x]
  | y :: ys, x => if x.minKey ≤ y.minKey then x :: y :: ys else y :: addTable ys x

/-- `TableManifest::removeTableFile` (src/table_manifest.cc:499-546). -/
def removeTable (l : List (Tab K)) (n : Nat) : List (Tab K) :=
  l.filter (fun x => decide (x.number ≠ n))

/-! ### Inter-level compaction (src/table_compaction.cc:29-579) -/

/-- `RecGroupItr`: the table a group of records goes to, an existing one or a new one.  Within a
    level min keys are distinct, so the min key names the table. -/
structure Tgt (K : Type) where
  minKey : K
  fresh : Bool

/-- Moving the cursor over the destination tables up to key `k`
    (src/table_compaction.cc:131-141,249-258). -/
def advance (cur : Tgt K) : List (Tab K) → K → Tgt K × List (Tab K)
  | [], _ => (cur, [])
  | x :: xs, k => if x.minKey ≤ k then advance ⟨x.minKey, false⟩ xs k else (cur, x :: xs)

/-- The first group (src/table_compaction.cc:119-142). -/
def firstGroup (tables : List (Tab K)) (vmin : K) : Tgt K × List (Tab K) :=
  match tables with
  | [] => (⟨⊥, true⟩, [])
  | x :: xs => if vmin < x.minKey then (⟨⊥, true⟩, x :: xs)
      else advance ⟨x.minKey, false⟩ (x :: xs) vmin

/-- The highest key of the last destination table, its min key if it is empty
    (src/table_compaction.cc:102-114). -/
def maxKeyOf (tables : List (Tab K)) : K :=
  match tables.getLast? with
  | none => ⊥
  | some x => x.maxKey.getD x.minKey

/-- `update_next_table_info` for the records of the victim in key order
    (src/table_compaction.cc:232-325).  `full i` says whether the accumulated size or count exceeds
    the limit at record `i`.  The result pairs each record with the table it goes to. -/
def assign (top : K) (full : Nat → Bool) :
    Nat → Tgt K → List (Tab K) → List (K × Rec K) → List (Tgt K × Rec K)
  | _, _, _, [] => []
  | i, cur, rest, (k, r) :: rs =>
    match rest with
    | x :: xs =>
      if x.minKey ≤ k then
        let a := advance cur (x :: xs) k
        (a.1, r) :: assign top full (i + 1) a.1 a.2 rs
      else if full i && decide (top < k) then
        (⟨k, true⟩, r) :: assign top full (i + 1) ⟨k, true⟩ (x :: xs) rs
      else (cur, r) :: assign top full (i + 1) cur (x :: xs) rs
    | [] =>
      if full i && decide (top < k) then
        (⟨k, true⟩, r) :: assign top full (i + 1) ⟨k, true⟩ [] rs
      else (cur, r) :: assign top full (i + 1) cur [] rs

/-- The records of the groups that go to the table with min key `m`. -/
def groupOf (asg : List (Tgt K × Rec K)) (m : K) (fresh : Bool) : List (Rec K) :=
  (asg.filter (fun a => decide (a.1.minKey = m) && (a.1.fresh == fresh))).map (·.2)

/-- `TableMgr::setTableFileOffset` (src/table_set_batch.cc:53-154): the records of a group are
    set one by one, the last level purges deletions.  `moved` is false where the records come from an
    iterator, which knows their type. -/
def writeGroup (t : Tab K) (rs : List (Rec K)) (purge : Bool) (moved : Bool := true) : Tab K :=
  rs.foldl (fun t r => t.setSingle r purge moved) t

/-- All writes to tables that exist (src/table_compaction.cc:410-481). -/
def writeOld (l : List (Tab K)) (asg : List (Tgt K × Rec K)) (purge : Bool) : List (Tab K) :=
  l.map (fun x => writeGroup x (groupOf asg x.minKey false) purge)

/-- Min keys of the new tables, in the order of the groups. -/
def freshKeys (first : Tgt K) (asg : List (Tgt K × Rec K)) : List K :=
  (if first.fresh then [first.minKey] else []) ++
  ((asg.filter (fun a => a.1.fresh && decide (a.1.minKey = a.2.key))).map (·.1.minKey)).filter
    (fun m => decide (m ≠ first.minKey ∨ first.fresh = false))

/-- New tables with their records.  A new file has no `TableInfo` yet, so nothing is purged
    (src/table_file.cc:897-902). -/
def freshTables (num : Nat) (ms : List K) (asg : List (Tgt K × Rec K)) : List (Tab K) :=
  match ms with
  | [] => []
  | m :: ms =>
    writeGroup { number := num, minKey := m } (groupOf asg m true) false ::
      freshTables (num + 1) ms asg

/-- The destination level after a complete compaction of a victim with min key `vmin` and records
    `rs` (src/table_compaction.cc:83-497). -/
def mergeInto (l : List (Tab K)) (num : Nat) (vmin : K) (rs : SMap K (Rec K)) (purge : Bool)
    (full : Nat → Bool) : List (Tab K) × Nat :=
  let tables := tablesRange l vmin (rs.getLast?.map (·.1))
  let fg := firstGroup tables vmin
  let asg := assign (maxKeyOf tables) full 0 fg.1 fg.2 rs
  let ms := freshKeys fg.1 asg
  ((freshTables num ms asg).reverse.foldl addTable (writeOld l asg purge), num + ms.length)

/-- The destination level after an interrupted compaction: the writers of the groups have written
    what `done` says, the new tables are dropped (src/table_compaction.cc:474-478,563-578). -/
def mergePart (l : List (Tab K)) (vmin : K) (rs : SMap K (Rec K)) (purge : Bool)
    (full : Nat → Bool) (done : K → Nat) : List (Tab K) :=
  let tables := tablesRange l vmin (rs.getLast?.map (·.1))
  let fg := firstGroup tables vmin
  let asg := assign (maxKeyOf tables) full 0 fg.1 fg.2 rs
  l.map (fun x => writeGroup x ((groupOf asg x.minKey false).take (done x.minKey)) purge)

/-- First half of `TableMgr::compactL0` in level-extension mode (src/table_compaction.cc:759-915):
    unless an interrupted compaction left a source table, a new table takes over the writes and the
    old one becomes the source. -/
def compactL0Begin (t : TMgr K) (p : Nat) : TMgr K :=
  let ts := t.tablesByHash p
  if ts.any (fun x => x.status = .compactSrc) then t
  else match smallestNormal ts none with
    | none => t
    | some x =>
      { t with
        nextNum := t.nextNum + 1
        l0 := modify ({ number := t.nextNum, hashNum := p, minKey := ⊥ } :: t.l0) x.number
          (fun y => { y with status := .compactSrc }) }

/-- The source table of partition `p` (`getTwoSmallSrcTables`, src/table_mgr.cc:804-825). -/
def srcOf (t : TMgr K) (p : Nat) : Option (Tab K) :=
  (t.tablesByHash p).find? (fun x => x.status = .compactSrc)

/-- Second half of `TableMgr::compactL0` (src/table_compaction.cc:940-960) with `compactLevelItr`
    from level 0: the records of the source go to level 1, which is created if it does not exist,
    then the source is removed. -/
def compactL0End (c : TCfg K) (t : TMgr K) (p : Nat) (full : Nat → Bool) : TMgr K :=
  match t.srcOf p with
  | none => t
  | some v =>
    let lv := if t.lv.isEmpty then [[]] else t.lv
    match lv with
    | [] => t
    | l :: ls =>
      let m := mergeInto l t.nextNum v.minKey v.recs (c.purge && ls.isEmpty) full
      { t with nextNum := m.2, lv := m.1 :: ls, l0 := removeTable t.l0 v.number }

/-- Second half of `TableMgr::compactL0`, interrupted. -/
def compactL0Cancel (c : TCfg K) (t : TMgr K) (p : Nat) (full : Nat → Bool) (done : K → Nat) :
    TMgr K :=
  match t.srcOf p, t.lv with
  | some v, l :: ls => { t with lv := mergePart l v.minKey v.recs (c.purge && ls.isEmpty) full done :: ls }
  | _, _ => t

/-- `compactLevelItr` at a level above 0 that is not the last (src/table_compaction.cc:29-579): the
    table `v` of the level goes down; `refill` says whether an empty table for the same range is
    created (523-540). -/
def compactPair (c : TCfg K) (num : Nat) (up down : List (Tab K)) (last : Bool) (v : Tab K)
    (full : Nat → Bool) (refill : Bool) : List (Tab K) × List (Tab K) × Nat :=
  let m := mergeInto down num v.minKey v.recs (c.purge && last) full
  let up' := removeTable up v.number
  if refill then (addTable up' { number := m.2, minKey := v.minKey }, m.1, m.2 + 1)
  else (up', m.1, m.2)

/-- `TableMgr::compactInPlace` (src/table_compaction.cc:660-757) with `compactToManually`
    (src/table_file_compaction.cc:87-346): the last level drops deletions unless
    `preserveTombstone` is given.  No compaction callback. -/
def compactInPlace (l : List (Tab K)) (num : Nat) (v : Tab K) (dropDel : Bool) : List (Tab K) :=
  removeTable (addTable l
    { number := num, minKey := v.minKey
      recs := if dropDel then v.recs.filter (fun e => !e.2.isDel) else v.recs
      added := (if dropDel then v.recs.filter (fun e => !e.2.isDel) else v.recs).map (·.1) }) v.number

/-- The groups of `TableMgr::splitTableItr` (src/table_split.cc:136-212): a new group starts after
    every record at which `cut` holds. -/
def splitGroups (cut : Nat → Bool) : Nat → K → SMap K (Rec K) → List (K × Rec K) →
    List (K × SMap K (Rec K))
  | _, m, acc, [] => [(m, acc)]
  | i, m, acc, (k, r) :: rs =>
    match rs with
    | [] => [(m, acc ++ [(k, r)])]
    | (k2, _) :: _ =>
      if cut i then (m, acc ++ [(k, r)]) :: splitGroups cut (i + 1) k2 [] rs
      else splitGroups cut (i + 1) m (acc ++ [(k, r)]) rs

/-- The new tables of a split (src/table_split.cc:254-312). -/
def splitTables (num : Nat) : List (K × SMap K (Rec K)) → List (Tab K)
  | [] => []
  | (m, rs) :: gs =>
    writeGroup { number := num, minKey := m } (rs.map (·.2)) false :: splitTables (num + 1) gs

/-- `TableMgr::splitTableItr` (src/table_split.cc:61-368): nothing happens unless there are at
    least two groups. -/
def splitTable (l : List (Tab K)) (num : Nat) (v : Tab K) (cut : Nat → Bool) :
    List (Tab K) × Nat :=
  let gs := splitGroups cut 0 v.minKey [] v.recs
  if gs.length ≤ 1 then (l, num)
  else (removeTable ((splitTables num gs).reverse.foldl addTable l) v.number, num + gs.length)

/-- The table right before the victim (src/table_split.cc:393-402). -/
def tableBefore : Option (Tab K) → List (Tab K) → Nat → Option (Tab K)
  | prev, [], _ => prev
  | prev, x :: xs, n => if x.number = n then prev else tableBefore (some x) xs n

/-- `TableMgr::mergeLevel` (src/table_split.cc:370-518).  The records are read with an iterator, whose
    deletions have the type DELETION (src/table_file_iterator.cc:278). -/
def mergeTable (l : List (Tab K)) (v : Tab K) (purge : Bool) : List (Tab K) :=
  match tableBefore none l v.number with
  | none => l
  | some d =>
    removeTable (modify l d.number (fun x => writeGroup x (v.recs.map (·.2)) purge false)) v.number

/-- `TableMgr::mergeLevel` up to the removal of the victim: what a crash before the manifest is
    stored leaves on disk (src/table_split.cc:432-474). -/
def mergeTableCrash (l : List (Tab K)) (v : Tab K) (purge : Bool) : List (Tab K) :=
  match tableBefore none l v.number with
  | none => l
  | some d => modify l d.number (fun x => writeGroup x (v.recs.map (·.2)) purge false)

/-- `TableMgr::migrateLevel` (src/table_compaction.cc:581-658) on the last level. -/
def migrate (l : List (Tab K)) : List (Tab K) := l.map (fun x => { x with prevReq := false })

/-- Min key of a table as it is loaded: lowered to the lowest key of the table if that is smaller
    (src/table_manifest.cc:207-231). -/
def loadMin (x : Tab K) : K :=
  match x.recs.head? with
  | some e => if x.minKey ≠ ⊥ ∧ e.1 < x.minKey then e.1 else x.minKey
  | none => x.minKey

/-- `prevTableSearchRequired`: the table starts at or below the highest key of the table before it
    (src/table_manifest.cc:233-247). -/
def loadPrev (lastMax : Option K) (mk : K) : Bool :=
  match lastMax with
  | some m => decide (mk ≠ ⊥ ∧ mk ≤ m)
  | none => false

/-- Loading one level above 0 from the manifest (src/table_manifest.cc:171-262).  Entries are
    inserted in file order. -/
def loadLevel : Option K → List (Tab K) → List (Tab K) → List (Tab K)
  | _, [], acc => acc
  | lastMax, x :: xs, acc =>
    loadLevel x.maxKey xs
      (addTable acc { x with minKey := loadMin x, prevReq := loadPrev lastMax (loadMin x) })

/-- Closing and opening again: the manifest lists the tables of each skiplist in order
    (src/table_manifest.cc:282-403) and loading inserts them one by one (115-272), which turns the
    order of level 0 around because all its min keys are equal. -/
def reopen (t : TMgr K) : TMgr K :=
  { t with l0 := t.l0.foldl addTable [], lv := t.lv.map (fun l => loadLevel none l []) }

/-- One table of `adjustNumL0Partitions`: compaction into level 1 that keeps the source
    (src/table_mgr.cc:381-390, `doNotRemoveOldFile`). -/
def pushDown (c : TCfg K) (t : TMgr K) (v : Tab K) (full : Nat → Bool) : TMgr K :=
  let lv := if t.lv.isEmpty then [[]] else t.lv
  match lv with
  | [] => t
  | l :: ls =>
    let m := mergeInto l t.nextNum v.minKey v.recs (c.purge && ls.isEmpty) full
    { t with nextNum := m.2, lv := m.1 :: ls }

/-- `TableMgr::adjustNumL0Partitions` (src/table_mgr.cc:323-443): every table of every partition is
    compacted into level 1 in list order, then level 0 is replaced by `n` empty tables. -/
def adjustL0 (c : TCfg K) (t : TMgr K) (n : Nat) (full : Nat → Bool) : TMgr K :=
  let vs := (List.range t.parts).flatMap (fun p => t.tablesByHash p)
  let t' := vs.foldl (fun t v => pushDown c t v full) t
  { t' with
    parts := n
    nextNum := t'.nextNum + n
    l0 := (List.range n).foldl (fun l i => addTable l { number := t'.nextNum + i, hashNum := i, minKey := ⊥ }) [] }

/-! ### Whole operations

A table is named by its number.  Level `i` of the list is level `i + 1` of the code.  An unknown level or table
leaves the state as it is (the code returns an error). -/

/-- `DB::compactLevel` / `TableMgr::compactLevelItr` at level `i + 1`
    (src/table_compaction.cc:29-579,581-658): the last level moves down as a whole, any other level
    sends one table down. -/
def compactLevel (c : TCfg K) (t : TMgr K) (i n : Nat) (full : Nat → Bool) (refill : Bool) : TMgr K :=
  match t.lv.drop i with
  | [] => t
  | [l] => if l.isEmpty then t else { t with lv := t.lv.take i ++ [[], migrate l] }
  | up :: down :: b =>
    match up.find? (fun x => decide (x.number = n)) with
    | none => t
    | some v =>
      let r := compactPair c t.nextNum up down b.isEmpty v full refill
      { t with nextNum := r.2.2, lv := t.lv.take i ++ r.1 :: r.2.1 :: b }

/-- The same operation, interrupted after part of the records was written
    (src/table_compaction.cc:563-578). -/
def compactLevelCancel (c : TCfg K) (t : TMgr K) (i n : Nat) (full : Nat → Bool) (done : K → Nat) :
    TMgr K :=
  match t.lv.drop i with
  | up :: down :: b =>
    match up.find? (fun x => decide (x.number = n)) with
    | none => t
    | some v =>
      { t with lv := t.lv.take i ++
          up :: mergePart down v.minKey v.recs (c.purge && b.isEmpty) full done :: b }
  | _ => t

/-- `DB::compactInplace` (src/jungle.cc:593-601, src/table_compaction.cc:660-757).
    `preserve` is `CompactOptions::preserveTombstone`. -/
def compactInPlaceOp (t : TMgr K) (i n : Nat) (preserve : Bool) : TMgr K :=
  match t.lv.drop i with
  | [] => t
  | l :: b =>
    match l.find? (fun x => decide (x.number = n)) with
    | none => t
    | some v =>
      { t with
        nextNum := t.nextNum + 1
        lv := t.lv.take i ++ compactInPlace l t.nextNum v (b.isEmpty && !preserve) :: b }

/-- `DB::splitLevel` (src/jungle.cc:603-612, src/table_split.cc:29-368). -/
def splitOp (t : TMgr K) (i n : Nat) (cut : Nat → Bool) : TMgr K :=
  match t.lv.drop i with
  | [] => t
  | l :: b =>
    match l.find? (fun x => decide (x.number = n)) with
    | none => t
    | some v =>
      let r := splitTable l t.nextNum v cut
      { t with nextNum := r.2, lv := t.lv.take i ++ r.1 :: b }

/-- `DB::mergeLevel` (src/jungle.cc:614-628, src/table_split.cc:370-518). -/
def mergeOp (c : TCfg K) (t : TMgr K) (i n : Nat) : TMgr K :=
  match t.lv.drop i with
  | [] => t
  | l :: b =>
    match l.find? (fun x => decide (x.number = n)) with
    | none => t
    | some v => { t with lv := t.lv.take i ++ mergeTable l v (c.purge && b.isEmpty) :: b }

/-- `DB::mergeLevel` cut off by a crash before the manifest is stored. -/
def mergeOpCrash (c : TCfg K) (t : TMgr K) (i n : Nat) : TMgr K :=
  match t.lv.drop i with
  | [] => t
  | l :: b =>
    match l.find? (fun x => decide (x.number = n)) with
    | none => t
    | some v => { t with lv := t.lv.take i ++ mergeTableCrash l v (c.purge && b.isEmpty) :: b }

end TMgr
end Jungle
