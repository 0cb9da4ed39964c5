/-
  The bytes of a log file: `MemTable::flush` writes them, `MemTable::load` reads them back
  (src/memtable.cc).
-/
import Verif.Codec.Endian
import Verif.Codec.Crc

namespace Jungle
namespace LogCodec
open Crc

/-- Compression callbacks `cbGetMaxSize`, `cbCompress`, `cbDecompress`
    (include/libjungle/db_config.h).  `compress r = []` stands for "do not compress". -/
structure CompOpt where
  compress : Rec Bytes → Bytes
  decompress : Bytes → Bytes

/-- `record_flags` (src/memtable.cc:163-180). -/
def typeFlag : RType → Nat
  | .insertion => 0
  | .deletion => 1
  | .command => 2

/-- The compressed value, if the record is stored compressed (src/memtable.cc:1319-1348). -/
def compressed (co : Option CompOpt) (r : Rec Bytes) : Option Bytes :=
  match co with
  | none => none
  | some c => if r.type = .insertion ∧ c.compress r ≠ [] then some (c.compress r) else none

/-- `record_flags_set_compressed` (src/memtable.cc:186-189): `flags |= 0x10`. -/
def recFlags (co : Option CompOpt) (r : Rec Bytes) : Nat :=
  typeFlag r.type + if (compressed co r).isSome then 16 else 0

/-- `value_ref` (src/memtable.cc:1370-1376). -/
def storedVal (co : Option CompOpt) (r : Rec Bytes) : Bytes := (compressed co r).getD r.val

/-- `len_buf` (src/memtable.cc:1352-1362). -/
def lenMeta (co : Option CompOpt) (r : Rec Bytes) : Bytes :=
  be 8 r.seq ++ be 4 r.key.length ++ be 4 r.umeta.length ++
    (match compressed co r with
      | some c => be 4 c.length
      | none => []) ++ be 4 r.val.length

/-- The CRC over key, metadata and stored value (src/memtable.cc:1379-1381). -/
def dataCrc (key umeta val : Bytes) : W := crc32_8 val (crc32_8 umeta (crc32_8 key 0#32))

/-- One record in the file (src/memtable.cc:1296-1308,1350-1410).  The intermediate buffer and
    its page limit only decide how the same bytes are cut into `write` calls: see `Codec/FlushBuf` and
    C73, also for the cases in which they do not. -/
def encRec (co : Option CompOpt) (r : Rec Bytes) : Bytes :=
  be 8 (recFlags co r) ++ be 4 (crc32_8 (lenMeta co r) 0#32).toNat ++ lenMeta co r ++
  be 4 (dataCrc r.key r.umeta (storedVal co r)).toNat ++ r.key ++ r.umeta ++ storedVal co r

/-- `appendFlushMarker` (src/memtable.cc:1462-1471). -/
def encFlush (n : Nat) : Bytes := be 8 (1 * 2 ^ 56) ++ be 8 n

/-- `appendCheckpointMarker` (src/memtable.cc:1473-1483). -/
def encChk (n : Nat) : Bytes := be 8 (2 * 2 ^ 56) ++ be 8 n

/-- What a log file holds, in file order. -/
inductive Item
  /-- a record; the type is the low four bits of the flags -/
  | record (ty seq : Nat) (key umeta val : Bytes)
  | flushMark (n : Nat)
  | chkMark (n : Nat)
  deriving DecidableEq, Repr

/-- What is written: a record, a flush marker or a checkpoint marker. -/
inductive Entry
  | record (r : Rec Bytes)
  | flushMark (n : Nat)
  | chkMark (n : Nat)

def Entry.enc (co : Option CompOpt) : Entry → Bytes
  | .record r => encRec co r
  | .flushMark n => encFlush n
  | .chkMark n => encChk n

/-- The item an entry should come back as. -/
def Entry.item : Entry → Item
  | .record r => .record (typeFlag r.type) r.seq r.key r.umeta r.val
  | .flushMark n => .flushMark n
  | .chkMark n => .chkMark n

def encAll (co : Option CompOpt) (es : List Entry) : Bytes := es.flatMap (Entry.enc co)

/-! ### Reading -/

/-- `getLengthMetaSize` (src/memtable.cc:779-787). -/
def lenMetaSize (flags : Nat) : Nat := if flags / 16 % 2 = 1 then 24 else 20

/-- The lengths in `len_buf`: number, key, metadata, stored value, original value
    (src/memtable.cc:830-842). -/
def parseLen (flags : Nat) (lb : Bytes) : Nat × Nat × Nat × Nat × Nat :=
  let v := unbe ((lb.drop 16).take 4)
  (unbe (lb.take 8), unbe ((lb.drop 8).take 4), unbe ((lb.drop 12).take 4), v,
    if flags / 16 % 2 = 1 then unbe ((lb.drop 20).take 4) else v)

/-- The value of a record from its stored form (src/memtable.cc:864-903). -/
def restore (co : Option CompOpt) (flags : Nat) (stored : Bytes) (oSize : Nat) : Except Status Bytes :=
  if stored = [] then .ok []
  else if flags / 16 % 2 = 1 then
    match co with
    | none => .error .invalidConfig
    | some c =>
      if (c.decompress stored).length = oSize then .ok (c.decompress stored)
      else .error .decompressionFailed
  else .ok stored

/-- Second half of `MemTable::loadRecord` (src/memtable.cc:844-912): the CRC of the data, the
    data, and the comparison. -/
def loadBody (co : Option CompOpt) (flags : Nat) (lb bs : Bytes) : Except Status (Item × Bytes) :=
  let p := parseLen flags lb
  match getU 4 bs with
  | none => .error .incompleteLog
  | some (crcData, bs) =>
  match takeN p.2.1 bs with
  | none => .error .incompleteLog
  | some (key, bs) =>
  match takeN p.2.2.1 bs with
  | none => .error .incompleteLog
  | some (umeta, bs) =>
  match takeN p.2.2.2.1 bs with
  | none => .error .incompleteLog
  | some (stored, bs) =>
  match restore co flags stored p.2.2.2.2 with
  | .error s => .error s
  | .ok val =>
    if crcData ≠ (dataCrc key umeta stored).toNat then .error .checksumError
    else .ok (.record (flags % 16) p.1 key umeta val, bs)

/-- `MemTable::loadRecord` (src/memtable.cc:789-929) after the flags have been read.  The
    `available` checks and READ_VIOLATION both end the load; they are reported as
    INCOMPLETE_LOG, which is what the check that comes first returns. -/
def loadRec (co : Option CompOpt) (flags : Nat) (bs : Bytes) : Except Status (Item × Bytes) :=
  if bs.length < 4 + lenMetaSize flags + 4 then .error .incompleteLog
  else
    match getU 4 bs with
    | none => .error .incompleteLog
    | some (crcLen, bs) =>
    match takeN (lenMetaSize flags) bs with
    | none => .error .incompleteLog
    | some (lb, bs) =>
      if crcLen ≠ (crc32_8 lb 0#32).toNat then .error .checksumError
      else loadBody co flags lb bs

/-- Outcome of reading one piece of the file. -/
inductive Piece
  | item (i : Item) (rest : Bytes)
  /-- padding: the rest of the file is not looked at -/
  | padding
  | stop (s : Status)

/-- One round of the loop of `MemTable::load` (src/memtable.cc:988-1031) with `identify_type`
    (220-229). -/
def loadPiece (co : Option CompOpt) (bs : Bytes) : Piece :=
  match getU 8 bs with
  | none => .stop .incompleteLog
  | some (flags, rest) =>
    match flags / 2 ^ 56 with
    | 0 => match loadRec co flags rest with
           | .ok (i, rest') => .item i rest'
           | .error s => .stop s
    | 1 => match getU 8 rest with
           | some (n, rest') => .item (.flushMark n) rest'
           | none => .stop .incompleteLog
    | 2 => match getU 8 rest with
           | some (n, rest') => .item (.chkMark n) rest'
           | none => .stop .incompleteLog
    | 0xfe => .padding
    | _ => .stop .unknownLogFlag

/-- The loop of `MemTable::load` (src/memtable.cc:988-1031): the items read and the status it
    ends with.  Every round consumes at least eight bytes, so the length is enough fuel. -/
def loadLoop (co : Option CompOpt) : Nat → Bytes → List Item × Status
  | _, [] => ([], .ok)
  | 0, _ :: _ => ([], .ok)      -- not reached
  | fuel + 1, b :: bs =>
    match loadPiece co (b :: bs) with
    | .item i rest =>
      let r := loadLoop co fuel rest
      (i :: r.1, r.2)
    | .padding => ([], .ok)
    | .stop s => ([], s)

/-- `MemTable::load` on the bytes after the file header. -/
def load (co : Option CompOpt) (bs : Bytes) : List Item × Status := loadLoop co bs.length bs

end LogCodec
end Jungle
