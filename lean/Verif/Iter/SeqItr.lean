/-
  Model of the iterators by sequence number (`initSN`, src/iterator.cc:101-156,
  src/log_iterator.cc:72-234, src/table_iterator.cc:79-177, src/memtable_iterator.cc:83-131,
  src/table_file_iterator.cc:97-165), built from the merging algorithm and the leaves.
-/
import Verif.Iter.DBItr
import Verif.Iter.Client
import Verif.Table.Lsm
import Mathlib.Order.Nat

namespace Jungle.Iter
variable {K : Type} [LinearOrder K]

/-- BY_SEQ: ascending sequence numbers. -/
def seqPar {K : Type} : Par (Rec K) Nat := { byKey := false, ord := (·.seq), rank := fun _ => 0 }

/-- A leaf by sequence number. -/
abbrev SLeaf (K : Type) := Leaf Nat (Rec K) (Rec K)

/-! ### The log section -/

/-- `MemTable::Iterator::initSN`: `min_local` (src/memtable_iterator.cc:95-108). -/
def seqMin (mn : Nat) (m : MemTable K) : Nat :=
  let a := if m.minSeqNum ≠ NIL ∧ mn < m.minSeqNum then m.minSeqNum else mn
  let a := if m.flushedSeqNum ≠ NIL ∧ a < m.flushedSeqNum then m.flushedSeqNum else a
  if a > m.maxSeqNum then m.maxSeqNum else a

/-- `max_local` (src/memtable_iterator.cc:121-128). -/
def seqMax (mx : Nat) (m : MemTable K) : Nat :=
  let a := if m.minSeqNum ≠ NIL ∧ mx < m.minSeqNum then m.minSeqNum else mx
  if a > m.maxSeqNum then m.maxSeqNum else a

/-- `MemTable::Iterator::initSN` on the live handle (src/memtable_iterator.cc:83-131): the cursor is
    the first node from `minSeq` on; it is not compared with `maxSeq`.  On failure there is no
    cursor. -/
def seqLeaf (mn mx : Nat) (f : LogFile K) : SLeaf K :=
  let s : SLeaf K := { nodes := f.mem.bySeq.map (fun r => (r.seq, r)), val := some,
                       lo := some (seqMin mn f.mem), hi := some (seqMax mx f.mem), pos := none }
  if f.mem.maxSeqNum = NIL then s
  else if seqMin mn f.mem > mx then s
  else { s with pos := s.fromStart.head?.map (·.1) }

abbrev SeqSrc (K : Type) := Itr (SLeaf K) (Rec K)

def slogOps : Ops (SeqSrc K) (Rec K) Nat := mergeOps seqPar (Leaf.ops .memSeq)

/-- `LogMgr::Iterator::initSN` on the live handle (src/log_iterator.cc:72-234); empty when it
    fails. -/
def slogItr (l : LogMgr K) (minArg maxArg : Nat) : SeqSrc K :=
  match itrRange l minArg maxArg with
  | none => { win := [], cur := none }
  | some (mn, mx) => openIdx seqPar (Leaf.ops .memSeq) ((itrFiles l mn mx).map (seqLeaf mn mx))

/-! ### The table section -/

/-- The sequence index of a table file: ForestDB keeps the latest document of every key, ordered by
    the number stored with it. -/
def seqIndex (t : Tab K) : SMap Nat (Rec K) := t.recs.foldl (fun m e => m.insert e.2.seq e.2) []

/-- `TableFile::Iterator::initSN` on the live handle (src/table_file_iterator.cc:97-165).  A
    `maxSeq` of 0 means no bound to ForestDB. -/
def stabLeaf (minArg maxArg : Nat) (t : Tab K) : SLeaf K :=
  Leaf.init (seqIndex t) some (some (if valid minArg then minArg else 0))
    (if valid maxArg ∧ maxArg ≠ 0 then some maxArg else none)

def stabOps : Ops (SeqSrc K) (Rec K) Nat := mergeOps seqPar (Leaf.ops .table)

/-- `TableMgr::Iterator::initSN` on the live handle: all tables (src/table_iterator.cc:79-177). -/
def stabItr [OrderBot K] (t : TMgr K) (minArg maxArg : Nat) : SeqSrc K :=
  openIdx seqPar (Leaf.ops .table) ((itrTables t none none).map (stabLeaf minArg maxArg))

/-! ### The handle -/

abbrev SeqIt (K : Type) := Itr (SeqSrc K ⊕ SeqSrc K) (Rec K)

def seqOps : Ops (SeqIt K) (Rec K) Nat := mergeOps seqPar (sumOps slogOps stabOps)

/-- `Iterator::next`, `Iterator::prev` BY_SEQ (src/iterator.cc:175-383). -/
def sqStep (d : Dir) (it : SeqIt K) : Status × SeqIt K :=
  if it.cur.isNone then (.outOfRange, it) else seqOps.step d it

/-- `Iterator::get` BY_SEQ: deletions are returned (src/iterator.cc:158-173). -/
def sqGet (it : SeqIt K) : Status × Option (Rec K) :=
  match it.cur with
  | some e => (.ok, some e)
  | none => (.keyNotFound, none)

/-- `Iterator::seekSN`, `gotoBegin`, `gotoEnd` (src/iterator.cc:385-402, 438-573). -/
def sqSeek (q : Seek Nat) (it : SeqIt K) : Status × SeqIt K :=
  if it.cur.isNone then (.ok, it) else seqOps.seek q it

/-- The body of `Iterator::initSN` (src/iterator.cc:112-155). -/
def seqInit [OrderBot K] (l : LogMgr K) (t : TMgr K) (minArg maxArg : Nat) : SeqIt K :=
  openIdx seqPar (sumOps slogOps stabOps) [.inl (slogItr l minArg maxArg), .inr (stabItr t minArg maxArg)]

/-! ### Programs of a client -/

/-- `do { get } while (next)` (or `prev`), for at most `n` records. -/
def sqAll (d : Dir) : Nat → SeqIt K → List (Rec K)
  | 0, _ => []
  | n + 1, it =>
    match sqGet it with
    | (.ok, some e) =>
      match sqStep d it with
      | (.ok, it') => e :: sqAll d n it'
      | _ => [e]
    | _ => []

/-- Call `next` / `prev` one after the other, `get` after each, and stop at the first that fails. -/
def sqRun : SeqIt K → List Bool → List (Status × Option (Rec K))
  | _, [] => []
  | it, b :: bs =>
    match sqStep (dirOf b) it with
    | (.ok, it') => (.ok, (sqGet it').2) :: sqRun it' bs
    | (s, _) => [(s, none)]

end Jungle.Iter

namespace Jungle
open Iter
variable {K : Type} [LinearOrder K] [OrderBot K] {c : TCfg K} {parts : Nat} {hp : 0 < parts}

/-- `Iterator::initSN(db, min_seq, max_seq)` (src/iterator.cc:101-156); `NIL`: no bound.  Errors of
    reading a table file are not modelled. -/
def DB.seqItr (db : DB K (Lsm c parts hp)) (minSeq maxSeq : Nat) : Status × Option (SeqIt K) :=
  if db.check .read ≠ .ok then (db.check .read, none)
  else if db.log.cfg.useSequenceIndex = false then (.seqIndexUnavailable, none)
  else (.ok, some (seqInit db.log (db.table : TMgr K) minSeq maxSeq))

end Jungle
