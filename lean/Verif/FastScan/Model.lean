/-
  Inter-level compaction with `DBConfig::fastIndexScan` (src/table_compaction.cc:195-216, 292-303,
  330-367): the victim is read by traversing the index of its file, and the index need not hold the
  whole key.

  What the index holds is decided by the storage engine, which is not in the repository.  The code
  says (src/table_compaction.cc:340-346) that it may be a prefix of the key followed by padding
  bytes; `idx` is any such function, `IdxOk` says so.
-/
import Verif.Table.Model
import Verif.Codec.ByteKey

namespace Jungle.FastScan
open TMgr

/-- What the traversal passes for a key: at least one byte of the key, then padding. -/
def IdxOk (idx : ByteKey → Bytes) (k : ByteKey) : Prop :=
  ∃ n z, 0 < n ∧ n ≤ k.bytes.length ∧ idx k = k.bytes.take n ++ List.replicate z 0

/-- The loop that removes trailing NUL bytes and leaves at least one byte
    (src/table_compaction.cc:342-346). -/
def stripNul : Bytes → Bytes
  | [] => []
  | b :: bs => b :: (bs.reverse.dropWhile (fun c => c == 0)).reverse

/-- The key `update_next_table_info` is called with (src/table_compaction.cc:348-359): the bytes of
    the index, or the key of the record on disk if those bytes are a proper prefix of the min key of
    the next table. -/
def scanKey (idx : ByteKey → Bytes) (next : List (Tab ByteKey)) (k : ByteKey) : ByteKey :=
  match next with
  | [] => ⟨stripNul (idx k)⟩
  | x :: _ =>
    if (stripNul (idx k)).length < x.minKey.bytes.length then
      if SizedBuf.cmp (stripNul (idx k)) (x.minKey.bytes.take (stripNul (idx k)).length) = 0 then k
      else ⟨stripNul (idx k)⟩
    else ⟨stripNul (idx k)⟩

/-- `update_next_table_info` for the entries of the index (src/table_compaction.cc:225-328).  All
    comparisons are made with what `scanKey` gives; the min key of a new table is read from the
    record (292-303). -/
def assignFast (idx : ByteKey → Bytes) (top : ByteKey) (full : Nat → Bool) :
    Nat → Tgt ByteKey → List (Tab ByteKey) → List (ByteKey × Rec ByteKey) →
    List (Tgt ByteKey × Rec ByteKey)
  | _, _, _, [] => []
  | i, cur, rest, (k, r) :: rs =>
    match rest with
    | x :: xs =>
      if x.minKey ≤ scanKey idx (x :: xs) k then
        let a := advance cur (x :: xs) (scanKey idx (x :: xs) k)
        (a.1, r) :: assignFast idx top full (i + 1) a.1 a.2 rs
      else if full i && decide (top < scanKey idx (x :: xs) k) then
        (⟨k, true⟩, r) :: assignFast idx top full (i + 1) ⟨k, true⟩ (x :: xs) rs
      else (cur, r) :: assignFast idx top full (i + 1) cur (x :: xs) rs
    | [] =>
      if full i && decide (top < scanKey idx [] k) then
        (⟨k, true⟩, r) :: assignFast idx top full (i + 1) ⟨k, true⟩ [] rs
      else (cur, r) :: assignFast idx top full (i + 1) cur [] rs

/-- The destination level after a complete compaction (src/table_compaction.cc:83-497). -/
def mergeFast (idx : ByteKey → Bytes) (l : List (Tab ByteKey)) (num : Nat) (vmin : ByteKey)
    (rs : SMap ByteKey (Rec ByteKey)) (purge : Bool) (full : Nat → Bool) : List (Tab ByteKey) × Nat :=
  let tables := tablesRange l vmin (rs.getLast?.map (·.1))
  let fg := firstGroup tables vmin
  let asg := assignFast idx (maxKeyOf tables) full 0 fg.1 fg.2 rs
  let ms := freshKeys fg.1 asg
  ((freshTables num ms asg).reverse.foldl addTable (writeOld l asg purge), num + ms.length)

/-- Second half of `TableMgr::compactL0` (src/table_compaction.cc:940-960). -/
def compactL0End (idx : ByteKey → Bytes) (c : TCfg ByteKey) (t : TMgr ByteKey) (p : Nat)
    (full : Nat → Bool) : TMgr ByteKey :=
  match t.srcOf p with
  | none => t
  | some v =>
    let lv := if t.lv.isEmpty then [[]] else t.lv
    match lv with
    | [] => t
    | l :: ls =>
      let m := mergeFast idx l t.nextNum v.minKey v.recs (c.purge && ls.isEmpty) full
      { t with nextNum := m.2, lv := m.1 :: ls, l0 := removeTable t.l0 v.number }

/-- `DB::compactLevel` (src/table_compaction.cc:29-579,581-658). -/
def compactLevel (idx : ByteKey → Bytes) (c : TCfg ByteKey) (t : TMgr ByteKey) (i n : Nat)
    (full : Nat → Bool) (refill : Bool) : TMgr ByteKey :=
  match t.lv.drop i with
  | [] => t
  | [l] => if l.isEmpty then t else { t with lv := t.lv.take i ++ [[], migrate l] }
  | up :: down :: b =>
    match up.find? (fun x => decide (x.number = n)) with
    | none => t
    | some v =>
      let m := mergeFast idx down t.nextNum v.minKey v.recs (c.purge && b.isEmpty) full
      let up' := removeTable up v.number
      let r := if refill then (addTable up' { number := m.2, minKey := v.minKey }, m.1, m.2 + 1)
        else (up', m.1, m.2)
      { t with nextNum := r.2.2, lv := t.lv.take i ++ r.1 :: r.2.1 :: b }

end Jungle.FastScan
