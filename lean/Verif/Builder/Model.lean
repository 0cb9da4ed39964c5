/-
  Model of the bulk builder: src/jungle_builder.cc, include/libjungle/jungle_builder.h, and the part of
  `LogMgr::init` it uses (src/log_mgr.cc:140-155).

  Simplifications: the calls to the file system and to ForestDB succeed; a ForestDB file is a finite map
  from keys to documents, as in Verif/Table/Model.lean; values are not compressed; the estimated
  size of the file is left open, an arbitrary flag says whether it is above the limit.
-/
import Verif.DB.Lemmas
import Verif.Table.Lsm
import Verif.Log.Crash

namespace Jungle

/-- `BuildParams::TableData` with the contents of the table file it names
    (include/libjungle/jungle_builder.h:55-72). -/
structure TData (K : Type) where
  number : Nat
  minKey : K
  maxSeq : Nat
  recs : SMap K (Rec K)

/-- `Builder` (include/libjungle/jungle_builder.h:36-131): the open table file, if any (`curFhandle`,
    `curTableIdx`), `curMinKey` (`⊥` is the empty buffer), `curMaxSeqnum`, `seqnumCounter`,
    `tableIdxCounter`, and the tables in `buildParams`. -/
structure Bld (K : Type) [LinearOrder K] [OrderBot K] where
  cur : Option (Nat × SMap K (Rec K)) := none
  curMin : K := ⊥
  maxSeq : Nat := 0
  counter : Nat := 1
  next : Nat := 0
  done : List (TData K) := []

namespace Bld
variable {K : Type} [LinearOrder K] [OrderBot K]

/-- `Builder::finalizeFile` (src/jungle_builder.cc:250-281). -/
def finalize (b : Bld K) : Bld K :=
  match b.cur with
  | none => b
  | some (i, m) =>
    { b with cur := none, curMin := ⊥,
             done := b.done ++ [{ number := i, minKey := b.curMin, maxSeq := b.maxSeq, recs := m }] }

/-- The first part of `Builder::set`: a new table file if none is open or the open one is full
    (src/jungle_builder.cc:150-171). -/
def room (b : Bld K) (full : Bool) : Bld K :=
  if b.cur.isNone || full then
    let b1 := b.finalize
    { b1 with cur := some (b1.next, []), next := b1.next + 1 }
  else b

/-- The document `Builder::set` stores: the type of the record is not looked at, and a record without
    a number gets the next one of the builder (src/jungle_builder.cc:173-234). -/
def docOf (r : Rec K) (s : Nat) : Rec K := { r with seq := s, type := .insertion }

/-- `Builder::set` (src/jungle_builder.cc:147-248). -/
def set (b : Bld K) (full : Bool) (r : Rec K) : Bld K :=
  let b1 := b.room full
  let s := if r.seq = NIL then b1.counter else r.seq
  { b1 with
    counter := if r.seq = NIL then b1.counter + 1 else b1.counter
    maxSeq := Nat.max b1.maxSeq s
    curMin := if b1.curMin = ⊥ then r.key else b1.curMin
    cur := b1.cur.map (fun p => (p.1, p.2.insert r.key (docOf r s))) }

/-- A sequence of calls of `Builder::set` on a new builder. -/
def run (w : List (Bool × Rec K)) : Bld K := w.foldl (fun b p => b.set p.1 p.2) {}

/-- The tables `Builder::commit` hands over (src/jungle_builder.cc:283-289). -/
def tables (b : Bld K) : List (TData K) := b.finalize.done

end Bld

namespace Builder
variable {K : Type} [LinearOrder K] [OrderBot K]

/-- The search for the table with the smallest key (src/jungle_builder.cc:55-64): number of the table
    and smallest key so far, which is the empty one at the start. -/
def minTable (tds : List (TData K)) : Nat × K :=
  tds.foldl (fun a td => if td.minKey < a.2 then (td.number, td.minKey) else a) (0, ⊥)

/-- The biggest sequence number (src/jungle_builder.cc:56-64). -/
def maxSeq (tds : List (TData K)) : Nat := tds.foldl (fun a td => Nat.max td.maxSeq a) 0

/-- The biggest table number (src/jungle_builder.cc:67-82). -/
def maxNum (tds : List (TData K)) : Nat := tds.foldl (fun a td => Nat.max td.number a) 0

/-- The entry of a table file in level 1 (src/jungle_builder.cc:69-79). -/
def entry (smallest : Nat) (td : TData K) : Tab K :=
  { number := td.number, minKey := if smallest ≠ td.number then td.minKey else ⊥, recs := td.recs }

/-- The empty tables of level 0 (src/jungle_builder.cc:84-93). -/
def emptyL0 : Nat → Nat → Nat → List (Tab K) → List (Tab K)
  | 0, _, _, acc => acc
  | n + 1, i, num, acc =>
    emptyL0 n (i + 1) (num + 1) (TMgr.addTable acc { number := num + 1, hashNum := i, minKey := ⊥ })

/-- The table section `Builder::buildFromTableFiles` writes (src/jungle_builder.cc:27-99). -/
def tableSection (parts : Nat) (tds : List (TData K)) : TMgr K :=
  { parts := parts
    nextNum := maxNum tds + parts + 1
    l0 := emptyL0 parts 0 (maxNum tds) []
    lv := if tds = [] then [] else [tds.foldl (fun l td => TMgr.addTable l (entry (minTable tds).1 td)) []] }

end Builder

section log
variable {K : Type} [LinearOrder K]

/-- `LogFile::updateMaxSeqNum` (src/log_file.cc:736-741, src/memtable.cc:396-403). -/
def LogFile.updateMaxSeqNum (f : LogFile K) (n : Nat) : LogFile K :=
  if f.mem.maxSeqNum < n ∨ f.mem.maxSeqNum = NIL then { f with mem := { f.mem with maxSeqNum := n } } else f

/-- `LogMgr::init` of a new log section with `startSeqnum = n + 1` (src/log_mgr.cc:118-165). -/
def LogMgr.initAt (cfg : Cfg) (n : Nat) : LogMgr K :=
  let f : LogFile K := LogFile.create 0 n 1
  { cfg := cfg
    files := [if 0 < n then ((f.updateMaxSeqNum n).setFlushedSeqNum n).setSyncedSeqNum n else f]
    maxNum := 0 }

/-- The log section `Builder::buildFromTableFiles` leaves on disk (src/jungle_builder.cc:101-110), opened
    again with configuration `cfg`. -/
def LogMgr.built (cfg : Cfg) (n : Nat) : LogMgr K :=
  let l : LogMgr K := (LogMgr.initAt cfg n).sync.2
  LogMgr.recover cfg l.persist (l.files.map LogFile.onDisk)

end log

/-- The database made from table files by `Builder::buildFromTableFiles` (src/jungle_builder.cc:27-114)
    and then opened. -/
def DB.fromTables {K : Type} [LinearOrder K] [OrderBot K] (c : TCfg K) {parts : Nat} (h : 0 < parts)
    (cfg : Cfg) (tds : List (TData K)) : DB K (Lsm c parts h) :=
  { log := LogMgr.built cfg (Builder.maxSeq tds)
    table := (Builder.tableSection parts tds).reopen }

/-- The database made by calls of `Builder::set` and `Builder::commit` and then opened. -/
def DB.built {K : Type} [LinearOrder K] [OrderBot K] (c : TCfg K) {parts : Nat} (h : 0 < parts)
    (cfg : Cfg) (w : List (Bool × Rec K)) : DB K (Lsm c parts h) :=
  DB.fromTables c h cfg (Bld.run w).tables

end Jungle
