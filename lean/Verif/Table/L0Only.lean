/-
  The table section without level extension (`nextLevelExtension = false`): all tables are in
  level 0 and a compaction writes a new level-0 table (src/table_compaction.cc:759-1009,
  src/table_file_compaction.cc:34-51,347-560).

  Simplifications: as in `Table/Model`; the compaction callback is not modelled; the new writable
  table is added and the sources are marked in one step (a flush in between still goes to the old
  writable table).  Switching a database between the two modes is not modelled.
-/
import Verif.Table.L0

set_option linter.unusedSectionVars false

namespace Jungle

/-- Which tables `mergeCompactTo` moves where: the loop over the two iterators
    (src/table_file_compaction.cc:424-529).  The first list is the file itself (`my_doc`), the second the
    file merged into it.  `n` bounds the number of rounds; the code stops when both are at the end. -/
def mergeDocs {K : Type} [LinearOrder K] : Nat → SMap K (Rec K) → SMap K (Rec K) → SMap K (Rec K)
  | 0, _, _ => []
  | _ + 1, [], ys => ys
  | _ + 1, x :: xs, [] => x :: xs
  | n + 1, x :: xs, y :: ys =>
    if x.1 < y.1 then x :: mergeDocs n xs (y :: ys)
    else if y.1 < x.1 then y :: mergeDocs n (x :: xs) ys
    else (if y.2.seq < x.2.seq then x else y) :: mergeDocs n xs ys

/-- `TableMgr` of a database without level extension, with the compactions under way: for each
    partition `compactStatus` and the number issued for the destination file. -/
structure L0S (K : Type) where
  t : TMgr K
  run : Nat → Option Nat

namespace L0S
variable {K : Type} [LinearOrder K] [OrderBot K]

/-- A new database (src/table_mgr.cc:262-296). -/
def init (parts : Nat) : L0S K := { t := TMgr.init parts, run := fun _ => none }

/-- Insertion into the `std::map` by table number. -/
def insNum (x : Tab K) : List (Tab K) → List (Tab K)
  | [] => [x]
  | y :: ys => if x.number < y.number then x :: y :: ys else y :: insNum x ys

/-- `sorted_tables` of `getTwoSmallSrcTables` and `getTwoSmallNormalTables`
    (src/table_mgr.cc:804-825,844-865). -/
def byNumber (l : List (Tab K)) (s : TStatus) : List (Tab K) :=
  (l.filter (fun x => decide (x.status = s))).foldr insNum []

/-- The tables a compaction of partition `p` works on: source tables that an interrupted compaction left, else
    the normal ones, at most two of them (src/table_compaction.cc:795-803). -/
def pick (t : TMgr K) (p : Nat) : List (Tab K) :=
  let ts := t.tablesByHash p
  match byNumber ts .compactSrc with
  | [] => (byNumber ts .normal).take 2
  | l => l.take 2

/-- First half of `compactL0` (src/table_compaction.cc:759-915): nothing if a compaction of the
    partition is under way; a new writable table, unless source tables are left; a number for the
    destination; the sources are marked. -/
def begin (s : L0S K) (p : Nat) : L0S K :=
  match s.run p, pick s.t p with
  | none, a :: l =>
    let t1 : TMgr K := if a.status = .normal then
        { s.t with
          nextNum := s.t.nextNum + 1
          l0 := TMgr.addTable s.t.l0 { number := s.t.nextNum, hashNum := p, minKey := ⊥ } }
      else s.t
    { t := { t1 with
        nextNum := t1.nextNum + 1
        l0 := t1.l0.map (fun x =>
          if x.number ∈ (a :: l).map (·.number) then { x with status := .compactSrc } else x) }
      run := fun q => if q = p then some t1.nextNum else s.run q }
  | _, _ => s

/-- The documents of the destination file: `compactTo` for one source, `mergeCompactTo` for two
    (src/table_file_compaction.cc:34-51,87-346,347-560).  Deletions are left out unless
    `preserveTombstone`. -/
def dstRecs (l : List (Tab K)) (preserve : Bool) : SMap K (Rec K) :=
  (match l with
   | [] => []
   | [a] => a.recs
   | a :: b :: _ => mergeDocs (a.recs.length + b.recs.length) a.recs b.recs).filter
    (fun e => preserve || !e.2.isDel)

/-- The finished destination file is added (src/table_compaction.cc:956-969); the sources are still
    there. -/
def addDst (s : L0S K) (p : Nat) (preserve : Bool) : L0S K :=
  match s.run p with
  | none => s
  | some d =>
    let x : Tab K :=
      { number := d
        hashNum := p
        minKey := ⊥
        recs := dstRecs (pick s.t p) preserve
        added := (dstRecs (pick s.t p) preserve).map (·.1) }
    { s with t := { s.t with l0 := TMgr.addTable s.t.l0 x } }

/-- The sources are removed and the compaction is over (src/table_compaction.cc:971-990). -/
def removeSrc (s : L0S K) (p : Nat) : L0S K :=
  match s.run p with
  | none => s
  | some _ =>
    { t := { s.t with l0 := s.t.l0.filter (fun x => decide (x.number ∉ (pick s.t p).map (·.number))) }
      run := fun q => if q = p then none else s.run q }

/-- The second half of `compactL0` (src/table_compaction.cc:930-990). -/
def finish (s : L0S K) (p : Nat) (preserve : Bool) : L0S K := (s.addDst p preserve).removeSrc p

/-- A cancelled compaction (src/table_compaction.cc:993-1008): the source tables stay marked. -/
def cancel (s : L0S K) (p : Nat) : L0S K :=
  { s with run := fun q => if q = p then none else s.run q }

/-- `TableMgr::setBatch`. -/
def setBatch (c : TCfg K) (s : L0S K) (R : List (Rec K)) : L0S K := { s with t := s.t.setBatch c R }

/-- Closing, or a crash, and opening again.  The manifest is stored after the first half of a compaction and
    after its end. -/
def reopen (s : L0S K) : L0S K := { t := s.t.reopen, run := fun _ => none }

end L0S
end Jungle
