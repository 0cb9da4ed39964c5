/-
  Models of the iterators at the leaves: over the memory table of one log file
  (src/memtable_iterator.cc, used through `LogFile::Iterator`, src/log_file.cc:795-863) and over one
  table file (src/table_file_iterator.cc).
-/
import Verif.Iter.Merge
import Verif.Log.MemTable

namespace Jungle.Iter

/-- Which leaf it is; they differ in `seek`. -/
inductive Kind
  /-- `MemTable::Iterator` BY_KEY. -/
  | memKey
  /-- `MemTable::Iterator` BY_SEQ. -/
  | memSeq
  /-- `TableFile::Iterator`. -/
  | table
  deriving DecidableEq, Repr

/-- A leaf iterator.  `nodes`: the nodes of the skip list, in order, with their positions (for a
    table file: what the ForestDB snapshot holds).  `val`: the record a node shows to this
    iterator, `none` if it shows none (`validKeyExist` is false, src/memtable.cc:112-139).
    `lo`, `hi`: `startKey`/`endKey` or `minSeq`/`maxSeq`; `none` when empty.  `pos`: `cursor`.
    The nodes are those that exist when the iterator is opened. -/
structure Leaf (O N E : Type) where
  nodes : List (O × N)
  val : N → Option E
  lo : Option O
  hi : Option O
  pos : Option O

namespace Leaf
variable {O N E : Type} [LinearOrder O]

/-- Smaller than the start key. -/
def below (s : Leaf O N E) (k : O) : Bool := match s.lo with
  | none => false
  | some a => decide (k < a)

/-- Greater than the end key. -/
def above (s : Leaf O N E) (k : O) : Bool := match s.hi with
  | none => false
  | some b => decide (b < k)

/-- The forward walk over the nodes to the first one with a record, not beyond the end key
    (src/memtable_iterator.cc:60-78, 205-223, 318-334). -/
def scanFwd (s : Leaf O N E) : List (O × N) → Option O
  | [] => none
  | n :: l => if s.above n.1 then none else if (s.val n.2).isSome then some n.1 else scanFwd s l

/-- The backward walk (src/memtable_iterator.cc:159-175, 338-354). -/
def scanBwd (s : Leaf O N E) : List (O × N) → Option O
  | [] => none
  | n :: l => if s.below n.1 then none else if (s.val n.2).isSome then some n.1 else scanBwd s l

/-- Nodes from the start key on. -/
def fromStart (s : Leaf O N E) : List (O × N) := s.nodes.filter (fun n => !s.below n.1)

/-- Nodes up to the end key, backwards. -/
def fromEnd (s : Leaf O N E) : List (O × N) := (s.nodes.filter (fun n => !s.above n.1)).reverse

/-- `init` (src/memtable_iterator.cc:34-81; src/table_file_iterator.cc:40-95, where ForestDB places
    the cursor at the first document of the range). -/
def init (nodes : List (O × N)) (val : N → Option E) (lo hi : Option O) : Leaf O N E :=
  let s : Leaf O N E := { nodes := nodes, val := val, lo := lo, hi := hi, pos := none }
  { s with pos := s.scanFwd s.fromStart }

/-- `get` (src/memtable_iterator.cc:133-150, src/table_file_iterator.cc:167-233). -/
def get (s : Leaf O N E) : Option E := match s.pos with
  | none => none
  | some k => match s.nodes.find? (fun n => decide (n.1 = k)) with
    | none => none
    | some n => s.val n.2

def goto (s : Leaf O N E) (k : Option O) : Status × Leaf O N E := match k with
  | none => (.outOfRange, s)
  | some k => (.ok, { s with pos := some k })

/-- `next`, `prev` (src/memtable_iterator.cc:152-244, with `allow_tombstone`;
    src/table_file_iterator.cc:289-315, where a failed move is taken back). -/
def step (d : Dir) (s : Leaf O N E) : Status × Leaf O N E := match s.pos with
  | none => (.keyNotFound, s)
  | some k => match d with
    | .fwd => s.goto (s.scanFwd (s.nodes.filter (fun n => decide (k < n.1))))
    | .bwd => s.goto (s.scanBwd (s.nodes.filter (fun n => decide (n.1 < k))).reverse)

/-- The memory table by key: `seek(key, GREATER)` from the nodes that are not smaller
    (src/memtable_iterator.cc:264-280). -/
def memGE (s : Leaf O N E) (l : List (O × N)) : Status × Leaf O N E :=
  if l.isEmpty then s.goto (s.scanBwd s.fromEnd) else s.goto (s.scanFwd l)

/-- `seek(key, SMALLER)` from the nodes that are not greater, backwards
    (src/memtable_iterator.cc:282-299). -/
def memLE (s : Leaf O N E) (l : List (O × N)) : Status × Leaf O N E :=
  if l.isEmpty then s.goto (s.scanFwd s.fromStart) else s.goto (s.scanBwd l)

/-- The first node from `k` on, otherwise the last up to `maxSeq` (`seekSN`, GREATER,
    src/memtable_iterator.cc:372-381).  There is no check against `maxSeq`. -/
def seqGE (s : Leaf O N E) (l : List (O × N)) : Status × Leaf O N E :=
  match l with
  | n :: _ => s.goto (some n.1)
  | [] => s.goto (s.fromEnd.head?.map (·.1))

/-- `seekSN`, SMALLER (src/memtable_iterator.cc:382-391). -/
def seqLE (s : Leaf O N E) (k : O) : Status × Leaf O N E :=
  -- `if (seqnum < maxSeq) query.rec->seqNum = maxSeq;`
  let q := match s.hi with
    | none => k
    | some b => if k < b then b else k
  match (s.nodes.filter (fun n => decide (n.1 ≤ q))).reverse with
  | n :: _ => s.goto (some n.1)
  | [] => s.goto (s.fromStart.head?.map (·.1))

/-- `seek` / `seekSN` / `gotoBegin` (a `seek` with an empty key) / `gotoEnd`
    (src/memtable_iterator.cc:246-453, src/table_file_iterator.cc:317-375). -/
def seek (kind : Kind) (q : Seek O) (s : Leaf O N E) : Status × Leaf O N E :=
  if s.pos.isNone then (.keyNotFound, s) else
  match kind, q with
  | .memKey, .first => s.memGE s.fromStart
  | .memKey, .ge k => s.memGE (s.nodes.filter (fun n => decide (k ≤ n.1)))
  | .memKey, .le k => s.memLE (s.nodes.filter (fun n => decide (n.1 ≤ k))).reverse
  | .memKey, .last => s.goto (s.scanBwd s.fromEnd)
  | .memSeq, .first => s.seqGE s.fromStart
  | .memSeq, .ge k => s.seqGE (s.fromStart.filter (fun n => decide (k ≤ n.1)))
  | .memSeq, .le k => s.seqLE k
  | .memSeq, .last => match s.hi with
    | none => s.goto (s.fromEnd.head?.map (·.1))
    | some b => s.seqLE b
  | .table, .first => s.goto (s.scanFwd s.fromStart)
  | .table, .ge k =>
    match s.scanFwd (s.nodes.filter (fun n => decide (k ≤ n.1))) with
    | some k' => s.goto (some k')
    | none => s.goto (s.scanBwd s.fromEnd)
  | .table, .le k =>
    match s.scanBwd (s.nodes.filter (fun n => decide (n.1 ≤ k))).reverse with
    | some k' => s.goto (some k')
    | none => s.goto (s.scanFwd s.fromStart)
  | .table, .last => s.goto (s.scanBwd s.fromEnd)

def left (d : Dir) (s : Leaf O N E) : Nat := match s.pos with
  | none => 0
  | some k => match d with
    | .fwd => (s.nodes.filter (fun n => decide (k < n.1))).length
    | .bwd => (s.nodes.filter (fun n => decide (n.1 < k))).length

/-- A leaf as a child of a merging iterator. -/
def ops (kind : Kind) : Ops (Leaf O N E) E O where
  get := get
  step := step
  seek := seek kind
  left := left

end Leaf

/-- `RecNode::validKeyExist` with tombstones allowed, and the record it shows
    (src/memtable.cc:105-139).  An empty record list is an assertion failure in `getMinSeq`; it
    shows nothing here. -/
def nodeRec {K : Type} (seqFrom seqUpto : Nat) (rs : List (Rec K)) : Option (Rec K) :=
  match rs with
  | [] => none
  | r :: _ => if r.seq > seqUpto then none else getLatestRecord rs seqFrom seqUpto

end Jungle.Iter
