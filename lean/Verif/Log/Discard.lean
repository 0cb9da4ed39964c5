/-
  `discardDirty` of the log section.
-/
import Verif.Log.LogMgr

namespace Jungle
variable {K : Type} [LinearOrder K]

/-- `LogFile::discardDirty` (src/log_file.cc:588-592) with `MemTable::discardDirty`
    (src/memtable.cc:515-562).  The memtable is taken to be loaded. -/
def LogFile.discardDirty (f : LogFile K) (seqBegin : Nat) : LogFile K :=
  { f with mem := f.mem.discardDirty seqBegin }

/-- `LogMgr::discardDirty` (src/log_mgr.cc:1312-1359), sequential: the semaphore is free.  The
    last synced number is computed there but never used, so it is not in the model. -/
def LogMgr.discardDirty (l : LogMgr K) (seqBegin : Nat) : Status × LogMgr K :=
  if l.cfg.readOnly then (.writeViolation, l)
  else if l.maxNum = NIL then (.ok, l)
  else match l.fileBySeq seqBegin with
  | none => (.logFileNotFound, l)
  | some f =>
    (.ok, { l with files := l.files.map (fun g =>
      if f.num ≤ g.num ∧ g.num ≤ l.maxNum then g.discardDirty seqBegin else g) })

/-- `RecNode::getMinSeq` (src/memtable.cc:105-114): the number of the first record of the node;
    on an empty list `end()` is dereferenced (`none`). -/
def getMinSeq {K : Type} (recList : List (Rec K)) : Option Nat := recList.head?.map (·.seq)

/-- `RecNode::validKeyExist` with tombstones allowed (src/memtable.cc:116-139): every search
    by key except the exact one asks it about every node it meets; `none` is undefined behaviour. -/
def validKeyExist {K : Type} (recList : List (Rec K)) (seqFrom seqUpto : Nat) : Option Bool :=
  match getMinSeq recList with
  | none => none
  | some m => some (if m > seqUpto then false else (getLatestRecord recList seqFrom seqUpto).isSome)

end Jungle
