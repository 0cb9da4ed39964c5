/-
  Model of the direct-I/O file layer `FileOpsDirectIO` (src/fileops_directio.cc) and of the way a log
  file uses it: `LogFile::create`, `LogFile::flushMemTable` (src/log_file.cc:129-178,404-530) and
  `MemTable::findOffsetOfSeq` (src/memtable.cc:1096-1233).

  `pread`, `pwrite` and `ftruncate` of the operating system do not fail; a crash in the middle of a
  `pwrite` is modelled separately (`Dio.writes`).
-/
import Verif.Codec.LogCodec

namespace Jungle
open LogCodec

/-- `DirectIoOptions::bufferSize`, `alignSize` (include/libjungle/db_config.h:431-452). -/
structure DioCfg where
  bufferSize : Nat
  alignSize : Nat

/-- `FileHandleDirectIO` (src/fileops_directio.cc:32-73) with the bytes of the file.  `buf` are the
    first `bufPos` bytes of the aligned buffer.  `fsyncedFilePos` only saves calls of `fsync`. -/
structure Dio where
  file : Bytes
  filePos : Nat
  flushedPos : Nat
  buf : Bytes
  deriving DecidableEq

/-- Writing `src` at `pos`: `pwrite` on a file (a gap is filled with zeros), `memcpy` into a buffer. -/
def splice (dst : Bytes) (pos : Nat) (src : Bytes) : Bytes :=
  dst.take pos ++ List.replicate (pos - dst.length) 0 ++ src ++ dst.drop (pos + src.length)

namespace Dio
variable (c : DioCfg)

/-- `n` rounded up to the alignment, as in `readInternal` (src/fileops_directio.cc:122-129). -/
def alignUp (n : Nat) : Nat :=
  if n % c.alignSize > 0 then n + (c.alignSize - n % c.alignSize) else n

/-- `FileOpsDirectIO::readInternal` (src/fileops_directio.cc:113-159): FILE_READ_SIZE_MISMATCH is
    `none`. -/
def readInternal (file : Bytes) (nbyte offset : Nat) : Option Bytes :=
  let r := (file.drop offset).take (alignUp c nbyte)
  if r.length = nbyte then some r else none

/-- `FileOpsDirectIO::open` (src/fileops_directio.cc:161-233) on a file with these bytes. -/
def openFile (file : Bytes) : Option Dio :=
  let need := file.length % c.alignSize
  if need = 0 then some { file, filePos := file.length, flushedPos := file.length, buf := [] }
  else match readInternal c file need (file.length - need) with
    | none => none
    | some b => some { file, filePos := file.length - need, flushedPos := file.length, buf := b }

/-- One round of the loop of `FileOpsDirectIO::append` (src/fileops_directio.cc:346-406): the bytes
    that are left over and the new state. -/
def appendRound (d : Dio) (src : Bytes) : Dio × Bytes :=
  let slice := min src.length (c.bufferSize - d.buf.length)
  let buf := d.buf ++ src.take slice
  if c.bufferSize ≤ buf.length then
    ({ file := splice d.file d.filePos (buf.take c.bufferSize), filePos := d.filePos + c.bufferSize,
       flushedPos := max d.flushedPos (d.filePos + c.bufferSize), buf := [] }, src.drop slice)
  else ({ d with buf }, src.drop slice)

/-- The loop; the first argument is fuel. -/
def appendLoop : Nat → Dio → Bytes → Dio
  | 0, d, _ => d
  | n + 1, d, src =>
    if src = [] then d
    else appendLoop n (appendRound c d src).1 (appendRound c d src).2

/-- `FileOpsDirectIO::append` (src/fileops_directio.cc:326-408). -/
def append (d : Dio) (src : Bytes) : Dio := appendLoop c src.length d src

/-- The padding after `n` bytes of the buffer (src/fileops_directio.cc:432-449). -/
def padding (n : Nat) : Bytes :=
  if n % c.alignSize > 0 then
    let p := c.alignSize - n % c.alignSize
    let p := if p < 8 then p + c.alignSize else p
    splice (List.replicate p 0) 0 (be 8 (0xfe * 2 ^ 56))
  else []

/-- Whether `flush` has something to do (src/fileops_directio.cc:426-430). -/
def dirty (d : Dio) : Bool := !(d.buf.isEmpty || decide (d.filePos + d.buf.length ≤ d.flushedPos))

/-- `FileOpsDirectIO::flush` (src/fileops_directio.cc:422-491). -/
def flush (d : Dio) : Dio :=
  if d.dirty then
    { d with file := splice d.file d.filePos (d.buf ++ padding c d.buf.length), flushedPos := d.filePos + d.buf.length }
  else d

/-- `FileOpsDirectIO::ftruncate` (src/fileops_directio.cc:513-578). -/
def ftruncate (d : Dio) (n : Nat) : Option Dio :=
  if d.file.length ≤ n then some d
  else
    let need := n % c.alignSize
    let file := d.file.take n
    if need = 0 then some { file, filePos := n, flushedPos := n, buf := [] }
    else match readInternal c file need (n - need) with
      | none => none
      | some b => some { file, filePos := n - need, flushedPos := n, buf := b }

/-- What a `pread` of the layer can end with. -/
inductive ReadRes
  | ok (bs : Bytes)
  | sizeMismatch
  /-- the bytes read do not fit into the buffer of the thread -/
  | overflow
  deriving DecidableEq

/-- The loop of `FileOpsDirectIO::pread` (src/fileops_directio.cc:287-323); the first argument is
    fuel.  `cap` is the size of the `thread_local` buffer (276-281): it is allocated by the first read
    of the thread with the sizes of the file layer used then.  `afo` is `aligned_file_offset`. -/
def preadLoop (cap : Nat) (file : Bytes) (offset count : Nat) : Nat → Nat → Bytes → ReadRes
  | 0, _, _ => .sizeMismatch
  | n + 1, afo, dst =>
    if afo < offset + count then
      let slice := alignUp c (min (offset + count - afo) c.bufferSize)
      let slice := if file.length < afo + slice then file.length - afo else slice
      if cap < alignUp c slice then .overflow
      else match readInternal c file slice afo with
        | none => .sizeMismatch
        | some b =>
          let len := min (offset + count) (afo + slice) - max offset afo
          preadLoop cap file offset count n (afo + slice)
            (splice dst (if offset < afo then afo - offset else 0)
              ((b.drop (if afo < offset then offset - afo else 0)).take len))
    else .ok dst

/-- `FileOpsDirectIO::pread` (src/fileops_directio.cc:259-324) into a buffer `dst` of `count` bytes. -/
def pread (cap : Nat) (d : Dio) (dst : Bytes) (offset : Nat) : ReadRes :=
  let count := dst.length
  if count = 0 then .ok dst
  else if d.file.length < offset + count then .sizeMismatch
  else preadLoop c cap d.file offset count (offset + count + 1) (offset - offset % c.alignSize) dst

/-- The size `allocAlignedBuf` gives the buffer (src/fileops_directio.cc:96-111). -/
def capOf : Nat := c.bufferSize + c.alignSize

/-! ### the log file on top -/

/-- What `findOffsetOfSeq` does with one piece of the file. -/
inductive Skip
  | next (rest : Bytes)
  | padding
  | stop (s : Status)

/-- One round of the loop of `MemTable::findOffsetOfSeq` (src/memtable.cc:1117-1196).  The check
    that the content is there adds the three lengths in 32 bits (1164), the cursor moves by their
    sum in 64 bits (1169). -/
def skipPiece (bs : Bytes) : Skip :=
  match getU 8 bs with
  | none => .stop .incompleteLog
  | some (flags, rest) =>
    match flags / 2 ^ 56 with
    | 0 =>
      if rest.length < 4 + lenMetaSize flags + 4 then .stop .incompleteLog
      else
        match getU 4 rest with
        | none => .stop .incompleteLog
        | some (crcLen, r1) =>
        match takeN (lenMetaSize flags) r1 with
        | none => .stop .incompleteLog
        | some (lb, r2) =>
          if crcLen ≠ (Crc.crc32_8 lb 0#32).toNat then .stop .checksumError
          else
            let p := parseLen flags lb
            match getU 4 r2 with
            | none => .stop .incompleteLog
            | some (_, r3) =>
              if r3.length < (p.2.1 + p.2.2.1 + p.2.2.2.1) % 2 ^ 32 then .stop .incompleteLog
              else .next (r3.drop (p.2.1 + p.2.2.1 + p.2.2.2.1))
    | 1 => match getU 8 rest with
           | some (_, rest') => .next rest'
           | none => .stop .incompleteLog
    | 2 => match getU 8 rest with
           | some (_, rest') => .next rest'
           | none => .stop .incompleteLog
    | 0xfe => .padding
    | _ => .stop .unknownLogFlag

/-- `MemTable::findOffsetOfSeq` (src/memtable.cc:1096-1233): the status and `padding_start_pos`; `pos` is
    `last_valid_size`, the first argument is fuel. -/
def findPad : Nat → Nat → Bytes → Status × Option Nat
  | _, _, [] => (.ok, none)
  | 0, _, _ :: _ => (.ok, none)     -- not reached
  | n + 1, pos, b :: bs =>
    match skipPiece (b :: bs) with
    | .next rest => findPad n (pos + ((b :: bs).length - rest.length)) rest
    | .padding => (.ok, some pos)
    | .stop s => (s, none)

/-- `LOGFILE_FOOTER` and `LOGFILE_VERSION` (src/log_file.cc:27-28,166-168): twelve bytes. -/
def header : Bytes := [0xaa, 0xbb, 0xcc, 0xdd, 0xee, 0xff, 0xab, 0xcc] ++ be 4 1

/-- `LogFile::create` (src/log_file.cc:159-170) on a file that does not exist. -/
def create : Option Dio :=
  match openFile c [] with
  | none => none
  | some d => some (flush c (append c d header))

/-- The writing part of `LogFile::flushMemTable` (src/log_file.cc:508-515): `chunks` are the arguments
    of the calls of `append`. -/
def syncChunks (d : Dio) (chunks : List Bytes) : Dio := flush c (chunks.foldl (append c) d)

/-- `LogFile::closeFHandle` (src/log_file.cc:97-112), then the first part of `LogFile::flushMemTable` on
    a closed file (src/log_file.cc:415-497): the file is opened, read and checked, and padding is cut
    off; `none` if that fails or the file is corrupted. -/
def reopen (cap : Nat) (d : Dio) : Option Dio :=
  match openFile c (flush c d).file with
  | none => none
  | some d' =>
    match pread c cap d' (List.replicate d'.file.length 0) 0 with
    | .ok bs =>
      if bs.length < 12 then none
      else match findPad bs.length 12 (bs.drop 12) with
        | (.ok, none) => some d'
        | (.ok, some p) => ftruncate c d' p
        | _ => none
    | _ => none

/-- `LogFile::loadMemTable` (src/log_file.cc:211-257): the bytes after the header are loaded. -/
def loadFile (cap : Nat) (co : Option CompOpt) (file : Bytes) : Option (List Item × Status) :=
  match openFile c file with
  | none => none
  | some d =>
    match pread c cap d (List.replicate file.length 0) 0 with
    | .ok bs => if bs.length < 12 then none else some (load co (bs.drop 12))
    | _ => none

/-! ### the writes one by one -/

/-- The `pwrite` calls of one round of `append`. -/
def roundWrites (d : Dio) (src : Bytes) : List (Nat × Bytes) :=
  let slice := min src.length (c.bufferSize - d.buf.length)
  let buf := d.buf ++ src.take slice
  if c.bufferSize ≤ buf.length then [(d.filePos, buf.take c.bufferSize)] else []

def loopWrites : Nat → Dio → Bytes → List (Nat × Bytes)
  | 0, _, _ => []
  | n + 1, d, src =>
    if src = [] then []
    else roundWrites c d src ++ loopWrites n (appendRound c d src).1 (appendRound c d src).2

/-- The `pwrite` calls of the appends (src/fileops_directio.cc:362-405). -/
def appendWrites (d : Dio) (src : Bytes) : List (Nat × Bytes) := loopWrites c src.length d src

/-- The `pwrite` calls of `flush` (src/fileops_directio.cc:456-459). -/
def flushWrites (d : Dio) : List (Nat × Bytes) :=
  if d.dirty then [(d.filePos, d.buf ++ padding c d.buf.length)] else []

/-- The `pwrite` calls of `syncChunks`. -/
def syncWrites : Dio → List Bytes → List (Nat × Bytes)
  | d, [] => flushWrites c d
  | d, x :: xs => appendWrites c d x ++ syncWrites (append c d x) xs

/-- The file after these writes. -/
def applyWrites (file : Bytes) (ws : List (Nat × Bytes)) : Bytes :=
  ws.foldl (fun f w => splice f w.1 w.2) file

/-- What a crash during the writes, before the `fsync` after them, can leave: the writes are not
    ordered and not atomic, so every byte the file had is as it was, or as it was after some of the
    writes; what comes after the old end of the file is arbitrary. -/
def Torn (file : Bytes) (ws : List (Nat × Bytes)) (file' : Bytes) : Prop :=
  file.length ≤ file'.length ∧ ∀ i < file.length, ∃ k, file'[i]? = (applyWrites file (ws.take k))[i]?

end Dio
end Jungle
