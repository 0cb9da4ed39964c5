/-
  Shared vocabulary: status codes, records, and the sorted association list that
  stands for an ordered index.
-/
import Mathlib.Order.Defs.LinearOrder

namespace Jungle

/-- Byte strings (`SizedBuf` contents, include/libjungle/sized_buf.h:33-60). -/
abbrev Bytes := List UInt8

/-- The status codes the modelled functions return
    (include/libjungle/status.h:26-97).  Only the codes that occur are listed. -/
inductive Status
  | ok
  | keyNotFound
  | seqnumNotFound
  | invalidSeqnum
  | alreadyPurged
  | alreadyFlushed
  | logNotSynced
  | logFileNotFound
  | logNotExist
  | notInitialized
  | writeViolation
  | emptyBatch
  | operationInProgress
  | incompleteLog
  | checksumError
  | unknownLogFlag
  | fileNotExist
  | fileCorruption
  | notKvPair
  | invalidParameters
  | invalidMode
  | invalidCheckpoint
  | snapshotNotFound
  | outOfRange
  | handleIsBeingClosed
  | rollbackInProgress
  | invalidConfig
  | decompressionFailed
  | operationStopped
  | seqIndexUnavailable
  | error
  /-- Not a Jungle status: the C++ execution has undefined behaviour here
      (for example a null pointer dereference). -/
  | undefinedBehaviour
  deriving DecidableEq, Repr

/-- `Record::Type` (include/libjungle/record.h:31-46). -/
inductive RType
  | insertion
  | deletion
  | command
  deriving DecidableEq, Repr

/-- `Record` with an assigned sequence number (include/libjungle/record.h:28-230).
    The key type is left abstract so that the models also cover custom comparison
    functions; metadata and value are byte strings. -/
structure Rec (K : Type) where
  seq  : Nat
  type : RType
  key  : K
  umeta : Bytes := []
  val  : Bytes := []
  deriving DecidableEq, Repr

namespace Rec
variable {K : Type}
/-- `Record::isIns/isDel/isCmd` (include/libjungle/record.h:173-187). -/
def isIns (r : Rec K) : Bool := r.type == .insertion
def isDel (r : Rec K) : Bool := r.type == .deletion
def isCmd (r : Rec K) : Bool := r.type == .command

theorem not_ins_of_del {r : Rec K} (h : r.isDel = true) : r.isIns = false := by
  revert h; unfold isDel isIns; cases r.type <;> decide

theorem not_cmd_of_del {r : Rec K} (h : r.isDel = true) : r.isCmd = false := by
  revert h; unfold isDel isCmd; cases r.type <;> decide
end Rec

/-- `NOT_INITIALIZED` (src/internal_helper.h:275): the 64-bit number that stands for
    "no value".  Sequence numbers and file numbers are kept as naturals with this
    sentinel, exactly as in the code, so that comparisons with it behave as in C++. -/
def NIL : Nat := 18446744073709551615

end Jungle
