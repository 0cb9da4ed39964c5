/-
  Model of the iterators by key of the log section, of the table section and of a DB handle
  (src/log_iterator.cc, src/table_iterator.cc, src/iterator.cc), built from the merging algorithm
  and the leaves.
-/
import Verif.Iter.Leaf
import Verif.Log.LogMgr
import Verif.Table.Model

namespace Jungle.Iter
variable {σ τ E O : Type} [LinearOrder O]

/-- BY_KEY: ascending keys, newest first within a key. -/
def keyPar {K : Type} : Par (Rec K) K := { byKey := true, ord := (·.key), rank := (·.seq) }

/-- A child that is one of two kinds: an item of `jungle::Iterator` holds `logItr` or `tableItr`
    (src/db_internal.h:258-260). -/
def sumOps (o1 : Ops σ E O) (o2 : Ops τ E O) : Ops (σ ⊕ τ) E O where
  get := fun s => match s with
    | .inl a => o1.get a
    | .inr b => o2.get b
  step := fun d s => match s with
    | .inl a => ((o1.step d a).1, .inl (o1.step d a).2)
    | .inr b => ((o2.step d b).1, .inr (o2.step d b).2)
  seek := fun q s => match s with
    | .inl a => ((o1.seek q a).1, .inl (o1.seek q a).2)
    | .inr b => ((o2.seek q b).1, .inr (o2.seek q b).2)
  left := fun d s => match s with
    | .inl a => o1.left d a
    | .inr b => o2.left d b

/-- Open the children in the given order; the position stands for the address of the item. -/
def openIdx (p : Par E O) (ops : Ops σ E O) (cs : List σ) : Itr σ E :=
  openAll p ops (cs.zipIdx.map (fun x => (x.2, x.1)))

section
variable {K : Type} [LinearOrder K]

/-! ### The log section -/

/-- `LogMgr::getAvailSeqRange` (src/log_mgr.cc:1800-1834). -/
def availSeqRange (l : LogMgr K) : Option (Nat × Nat) :=
  match l.file? l.getLastFlushedLog, l.file? l.maxNum with
  | some f, some g =>
    some (if f.mem.flushedSeqNum = NIL then 0 else inc64 f.mem.flushedSeqNum, g.mem.maxSeqNum)
  | _, _ => none

/-- The numbers an iterator of the live handle may show (src/log_iterator.cc:92-120): `none` if
    there are none. -/
def itrRange (l : LogMgr K) (minArg maxArg : Nat) : Option (Nat × Nat) :=
  match availSeqRange l with
  | none => none
  | some (mn, mx) =>
    let mn := if valid minArg && decide (mn < minArg) then minArg else mn
    let mx := if valid maxArg && decide (maxArg < mx) then maxArg else mx
    let mx := if l.barrier ≠ 0 ∧ l.barrier < mx then l.barrier else mx
    if mx < mn then none else some (mn, mx)

/-- First file (src/log_iterator.cc:155-166). -/
def itrFrom (l : LogMgr K) (mn : Nat) : Nat :=
  match (if valid mn then l.fileBySeq mn else none) with
  | some f => f.num
  | none => l.getLastFlushedLog

/-- Last file (src/log_iterator.cc:167-178). -/
def itrTo (l : LogMgr K) (mn mx : Nat) : Nat :=
  match (if valid mx then l.fileBySeq mx else none) with
  | some f => max (itrFrom l mn) f.num
  | none => l.maxNum

/-- The files an iterator opens (src/log_iterator.cc:152-212).  Simplification: a number without a
    file makes the code try again, until another thread has changed the list; here it is passed
    over. -/
def itrFiles (l : LogMgr K) (mn mx : Nat) : List (LogFile K) :=
  l.files.filter (fun f => decide (itrFrom l mn ≤ f.num) && decide (f.num ≤ itrTo l mn mx))

/-- `LogFile::Iterator::init` with `MemTable::Iterator::init` (src/log_file.cc:795-812,
    src/memtable_iterator.cc:34-81). -/
def logLeaf (lo hi : Option K) (mn mx : Nat) (f : LogFile K) : Leaf K (List (Rec K)) (Rec K) :=
  Leaf.init f.mem.byKey (nodeRec mn mx) lo hi

abbrev LogIt (K : Type) := Itr (Leaf K (List (Rec K)) (Rec K)) (Rec K)

def logOps : Ops (LogIt K) (Rec K) K := mergeOps keyPar (Leaf.ops .memKey)

/-- `LogMgr::Iterator::init` on the live handle (src/log_iterator.cc:62-223); empty when it
    fails. -/
def logItr (l : LogMgr K) (lo hi : Option K) : LogIt K :=
  match itrRange l NIL NIL with
  | none => { win := [], cur := none }
  | some (mn, mx) => openIdx keyPar (Leaf.ops .memKey) ((itrFiles l mn mx).map (logLeaf lo hi mn mx))

/-! ### The table section -/

/-- `TableFile::Iterator::init` (src/table_file_iterator.cc:40-95). -/
def tabLeaf (lo hi : Option K) (t : Tab K) : Leaf K (Rec K) (Rec K) :=
  Leaf.init t.recs some lo hi

abbrev TabIt (K : Type) := Itr (Leaf K (Rec K) (Rec K)) (Rec K)

def tabOps : Ops (TabIt K) (Rec K) K := mergeOps keyPar (Leaf.ops .table)

/-- The tables an iterator opens (src/table_iterator.cc:142-166): all of level 0, those of the
    range in the other levels. -/
def itrTables [OrderBot K] (t : TMgr K) (lo hi : Option K) : List (Tab K) :=
  t.l0 ++ t.lv.flatMap (fun l => TMgr.tablesRange l (lo.getD ⊥) hi)

/-- `TableMgr::Iterator::init` on the live handle (src/table_iterator.cc:67-177). -/
def tabItr [OrderBot K] (t : TMgr K) (lo hi : Option K) : TabIt K :=
  openIdx keyPar (Leaf.ops .table) ((itrTables t lo hi).map (tabLeaf lo hi))

/-! ### The handle -/

abbrev KeyIt (K : Type) := Itr (LogIt K ⊕ TabIt K) (Rec K)

def keyOps : Ops (KeyIt K) (Rec K) K := mergeOps keyPar (sumOps logOps tabOps)

/-- `Iterator::next`, `Iterator::prev` BY_KEY: rounds until the record is not a deletion
    (src/iterator.cc:175-383).  An empty iterator answers OUT_OF_RANGE. -/
def keyRounds (d : Dir) : Nat → KeyIt K → Status × KeyIt K
  | 0, it => (.undefinedBehaviour, it)
  | n + 1, it =>
    match keyOps.step d it with
    | (.ok, it') =>
      match it'.cur with
      | some e => if e.isIns then (.ok, it') else keyRounds d n it'
      | none => (.undefinedBehaviour, it')
    | r => r

def keyStep (d : Dir) (it : KeyIt K) : Status × KeyIt K :=
  if it.cur.isNone then (.outOfRange, it) else keyRounds d (keyOps.left d it + 1) it

/-- `Iterator::get` (src/iterator.cc:158-173). -/
def keyGet (it : KeyIt K) : Status × Option (Rec K) :=
  match it.cur with
  | some e => if e.isIns then (.ok, some e) else (.keyNotFound, none)
  | none => (.keyNotFound, none)

/-- Skip deleted keys after `init` or a seek; a failure is ignored
    (src/iterator.cc:85-96, 553-567). -/
def skipDel (d : Dir) (it : KeyIt K) : KeyIt K :=
  match it.cur with
  | some e => if e.isIns then it else (keyStep d it).2
  | none => it

/-- `Iterator::init` (src/iterator.cc:29-99). -/
def keyInit [OrderBot K] (l : LogMgr K) (t : TMgr K) (lo hi : Option K) : KeyIt K :=
  skipDel .fwd (openIdx keyPar (sumOps logOps tabOps) [.inl (logItr l lo hi), .inr (tabItr t lo hi)])

/-- `Iterator::seek`, `gotoBegin`, `gotoEnd` (src/iterator.cc:385-402, 438-573).  Nothing happens
    on an empty iterator. -/
def keySeek (q : Seek K) (it : KeyIt K) : Status × KeyIt K :=
  if it.cur.isNone then (.ok, it) else
  match keyOps.seek q it with
  | (.ok, it') => (.ok, skipDel (match q with | .first | .ge _ => .fwd | .le _ | .last => .bwd) it')
  | r => r

end
end Jungle.Iter
