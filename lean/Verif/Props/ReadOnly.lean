/-
  C36: handles that must not be written through.
-/
import Mathlib.Order.Nat
import Verif.DB.WriteOps
import Verif.DB.GlobalBatch
import Verif.Props.Crash
import Verif.Props.Snap
import Verif.Props.ReaderRace

set_option linter.unusedSectionVars false

namespace Jungle
open Spec
variable {K : Type} [LinearOrder K] {S : TableSys K}

/-- The calls that ask whether the handle may be used; `checkpoint` does not. -/
def WriteOp.checks : WriteOp K S → Prop
  | .checkpoint => False
  | _ => True

/-- The calls the log section refuses on a read-only handle. -/
def WriteOp.refusedReadOnly : WriteOp K S → Prop
  | .flushLogs _ _ => False
  | .checkpoint => False
  | .compact _ => False
  | _ => True

theorem WriteOp.run_check (db : DB K S) (op : WriteOp K S) (hop : op.checks) {st : Status} (hst : st ≠ .ok)
    (hc : ∀ o, o ≠ OpType.read → db.check o = st) : op.run db = (st, db) := by
  have hw := hc .write (by decide)
  have hf := hc .flush (by decide)
  have hk := hc .compact (by decide)
  cases op <;>
    simp_all [WriteOp.checks, WriteOp.run, DB.set, DB.setSN, DB.setRecord, DB.setRecordByKey, DB.setRecordBatch,
      DB.del, DB.delSN, DB.delRecord, DB.sync, DB.discardDirty, DB.flushLogs, DB.rollback, DB.compactWith]

/-- C36: on a handle that is being closed, every call that writes, syncs, flushes, rolls back or
    compacts returns "handle is being closed" and changes nothing.  Partial: `checkpoint` and
    global batches do not ask (`C36_closing_checkpoint_violation`,
    `C36_closing_global_batch_violation`). -/
theorem C36_closing_partial (db : DB K S) (op : WriteOp K S) (hop : op.checks) (hc : db.closing = true) :
    op.run db = (.handleIsBeingClosed, db) :=
  op.run_check db hop (by decide) (fun o _ => by simp [DB.check, hc])

/-- C36: the same while another thread rolls the database back. -/
theorem C36_rollback_in_progress_partial (db : DB K S) (op : WriteOp K S) (hop : op.checks)
    (hc : db.closing = false) (hr : db.rollbackInProgress = true) :
    op.run db = (.rollbackInProgress, db) :=
  op.run_check db hop (by decide) (fun o ho => by simp [DB.check, hc, hr, ho])

/-- C36: on a read-only handle, every call that writes records, syncs, discards or rolls back is
    refused and changes nothing.  Partial: see `C36_readonly_flush_violation`,
    `C36_readonly_checkpoint_violation` and `C36_readonly_compact_violation`. -/
theorem C36_read_only_partial (db : DB K S) (op : WriteOp K S) (hop : op.refusedReadOnly)
    (hro : db.log.cfg.readOnly = true) : (op.run db).1 ≠ .ok ∧ (op.run db).2 = db := by
  have hset : ∀ r se, (db.setRecord r se).1 ≠ .ok ∧ (db.setRecord r se).2 = db := by
    intro r se
    unfold DB.setRecord
    split
    · next h => exact ⟨h, rfl⟩
    · simp [LogMgr.setSN, hro]
  cases op with
  | set k v => exact hset _ _
  | setSN n k v => exact hset _ _
  | setRecord r => exact hset _ _
  | setRecordByKey r => exact hset _ _
  | del k => exact hset _ _
  | delSN n k => exact hset _ _
  | delRecord r => exact hset _ _
  | setRecordBatch b =>
    show (db.setRecordBatch b).1 ≠ .ok ∧ (db.setRecordBatch b).2 = db
    unfold DB.setRecordBatch
    split
    · next h => exact ⟨h, rfl⟩
    · simp [LogMgr.setMulti, hro]
  | sync =>
    show db.sync.1 ≠ .ok ∧ db.sync.2 = db
    unfold DB.sync
    split
    · next h => exact ⟨h, rfl⟩
    · simp [LogMgr.sync, hro]
  | discardDirty n =>
    show (db.discardDirty n).1 ≠ .ok ∧ (db.discardDirty n).2 = db
    unfold DB.discardDirty
    split
    · next h => exact ⟨h, rfl⟩
    · simp [LogMgr.discardDirty, hro]
  | rollback n =>
    show (db.rollback n).1 ≠ .ok ∧ (db.rollback n).2 = db
    unfold DB.rollback
    split
    · next h => exact ⟨h, rfl⟩
    · split
      · exact ⟨by simp, rfl⟩
      · simp [LogMgr.rollback, LogMgr.rollbackCore, hro]
  | flushLogs o n => exact absurd hop (by simp [WriteOp.refusedReadOnly])
  | checkpoint => exact absurd hop (by simp [WriteOp.refusedReadOnly])
  | compact f => exact absurd hop (by simp [WriteOp.refusedReadOnly])

/-! ### the hypotheses are met -/

namespace ReadOnlyEx
/-- A handle with two log files and a table that is being closed. -/
def closing : DB Nat (Flat Nat) := { Example.d5 with closing := true }
/-- The same handle while it is rolled back. -/
def rolling : DB Nat (Flat Nat) := { Example.d5 with rollbackInProgress := true }
/-- The files of a handle that was synced, opened again read-only. -/
def ro : DB Nat (Flat Nat) := DB.reopen { readOnly := true, maxEntries := 2 } Example.d4.diskOf

example : (WriteOp.set 5 [7]).run closing = (.handleIsBeingClosed, closing) := C36_closing_partial _ _ trivial rfl
example : (WriteOp.flushLogs {} NIL).run closing = (.handleIsBeingClosed, closing) := C36_closing_partial _ _ trivial rfl
example : (WriteOp.del 6).run rolling = (.rollbackInProgress, rolling) := C36_rollback_in_progress_partial _ _ trivial rfl rfl
example : ((WriteOp.set 6 [7]).run ro).1 ≠ .ok ∧ ((WriteOp.set 6 [7]).run ro).2 = ro := C36_read_only_partial _ _ trivial rfl
example : (WriteOp.sync.run ro).1 ≠ .ok ∧ (WriteOp.sync.run ro).2 = ro := C36_read_only_partial _ _ trivial rfl
/-- On the same states with a handle that may be written, the same calls do change something. -/
example : (ro.get 6 = (.ok, some [2])) ∧ (((WriteOp.set 6 [7]).run Example.d5).2.get 6 = (.ok, some [7])) ∧
    ((WriteOp.del 6).run Example.d5).2.get 6 = (.keyNotFound, none) := by decide +kernel
end ReadOnlyEx

/-! ### where the claim is false of the code -/

/-- C36, violation: `checkpoint` on a handle that is being closed succeeds and syncs
    (src/jungle.cc:558-567 has no `checkHandleValidity`). -/
theorem C36_closing_checkpoint_violation :
    ∃ (db : DB Nat (Flat Nat)) (h : List (Rec Nat)) (db' : DB Nat (Flat Nat)), Reach db h ∧
      WriteOp.checkpoint.run { db with closing := true } = (.ok, db') ∧
      db.getLastSyncedSeqNum = none ∧ db'.getLastSyncedSeqNum = some 3 :=
  ⟨Example.d3, _, { Example.d3.checkpoint.2.1 with closing := true }, Example.r3, rfl, by decide +kernel, by decide +kernel⟩

/-- C36, violation: a read-only handle flushes its log files into the tables: `LogMgr::flush`
    (src/log_mgr.cc:1361-1593) does not look at `readOnly`, only the background flusher does
    (src/log_mgr.cc:2018). -/
theorem C36_readonly_flush_violation :
    ∃ (db : DB Nat (Flat Nat)) (h : List (Rec Nat)) (cfg : Cfg) (db' : DB Nat (Flat Nat)), Reach db h ∧
      cfg.readOnly = true ∧
      (WriteOp.flushLogs {} NIL).run (DB.reopen cfg db.diskOf) = (.ok, db') ∧
      (DB.reopen cfg db.diskOf).tableGet 6 = none ∧ (db'.tableGet 6).isSome = true ∧
      (DB.reopen cfg db.diskOf).getLastFlushedSeqNum = none ∧ db'.getLastFlushedSeqNum = some 3 :=
  ⟨Example.d4, _, { readOnly := true, maxEntries := 2 }, (ReadOnlyEx.ro.flushLogs {} NIL).2, Example.r4, rfl,
    rfl, by decide +kernel, by decide +kernel, by decide +kernel, by decide +kernel⟩

open MCmd SCmd in
/-- C36, violation: `checkpoint` on a read-only handle returns an error but leaves its marker: the
    checkpoint is listed afterwards (src/log_mgr.cc:1755-1776 marks before it syncs). -/
theorem C36_readonly_checkpoint_violation :
    ∃ (db : SnapDB 1 (by decide)) (cfg : Cfg) (db' : SnapDB 1 (by decide)), (∃ cs h n, PReach ⟨db, cs⟩ h n) ∧
      cfg.readOnly = true ∧
      WriteOp.checkpoint.run (DB.reopen cfg db.diskOf) = (.writeViolation, db') ∧
      (DB.reopen cfg db.diskOf).getCheckpoints = (.ok, []) ∧ db'.getCheckpoints = (.ok, [2]) := by
  let s := (snapRun 1 (by decide) [call (put 5 1), call (put 6 2), call sync]).get (by decide +kernel)
  let ro : SnapDB 1 (by decide) := DB.reopen { readOnly := true } s.1.diskOf
  obtain ⟨cs, n, hr⟩ := MCmd.start_reach snapPlain (Option.some_get (x := snapRun 1 (by decide) [call (put 5 1), call (put 6 2), call sync]) (by decide +kernel)).symm
  refine ⟨s.1, { readOnly := true }, ro.checkpoint.2.1, ⟨cs, _, n, hr⟩, rfl, ?_, by decide +kernel, by decide +kernel⟩
  exact Prod.ext (by decide +kernel) rfl

open MCmd SCmd in
/-- C36, violation: a compaction asked for through a read-only handle rewrites the tables; only the
    background compactor looks at `readOnly` (src/table_compact_condition.cc:393, 658). -/
theorem C36_readonly_compact_violation :
    ∃ (db : SnapDB 1 (by decide)) (cfg : Cfg) (f : CMgr Nat → Status × CMgr Nat) (db' : SnapDB 1 (by decide)),
      (∃ cs h n, PReach ⟨db, cs⟩ h n) ∧ cfg.readOnly = true ∧
      (∀ t : CMgr Nat, 0 < (CMgr.tab t).parts → (LsmC snapCfg 1 (by decide) 10).maint t (f t).2) ∧
      (WriteOp.compact f).run (DB.reopen cfg db.diskOf) = (.ok, db') ∧
      (CMgr.tab ((DB.reopen cfg db.diskOf).table : CMgr Nat)).l0.length = 1 ∧
      (CMgr.tab (db'.table : CMgr Nat)).l0.length = 2 := by
  let s := (snapRun 1 (by decide) [call (put 5 1), call (put 6 2), call sync, call flush]).get (by decide +kernel)
  let ro : SnapDB 1 (by decide) := DB.reopen { readOnly := true } s.1.diskOf
  let f : CMgr Nat → Status × CMgr Nat := fun t => (.ok, ⟨TMgr.compactL0Begin (CMgr.tab t) 0, CMgr.marks t⟩)
  obtain ⟨cs, n, hr⟩ := MCmd.start_reach snapPlain (Option.some_get (x := snapRun 1 (by decide) [call (put 5 1), call (put 6 2), call sync, call flush]) (by decide +kernel)).symm
  refine ⟨s.1, { readOnly := true }, f, (ro.compactWith f).2, ⟨cs, _, n, hr⟩, rfl, ?_, ?_, by decide +kernel, by decide +kernel⟩
  · intro t ht
    exact CMgr.Maint.l0Begin _ 0 ht
  · exact Prod.ext (by decide +kernel) rfl

open MCmd SCmd in
/-- C36, violation: a write through a snapshot handle is accepted and becomes visible on the live
    handle, because both share their internals (src/jungle.cc:37-40). -/
theorem C36_snapshot_write_violation :
    ∃ (db : SnapDB 1 (by decide)) (sn : Snap Nat) (db' : SnapDB 1 (by decide)), (∃ cs h n, PReach ⟨db, cs⟩ h n) ∧
      db.openSnapshot 0 = (.ok, some sn) ∧ Handle.snapshot.run db (.set 5 [9]) = (.ok, db') ∧
      db.get 5 = (.ok, some [4]) ∧ db'.get 5 = (.ok, some [9]) ∧ db'.snapGet (sn.follow db'.log) 5 = (.ok, some [4]) := by
  obtain ⟨cs, n, hr⟩ := MCmd.start_reach snapPlain (Option.some_get (x := snapRun 1 (by decide) [call (put 5 1), call (put 6 2), call sync, call flush, call (put 5 3), call checkpoint,
    call (put 5 4)]) (by decide +kernel)).symm
  refine ⟨snapS.1, snapLt, (snapS.1.set 5 [9]).2, ⟨cs, _, n, hr⟩, ?_, ?_, by decide +kernel, by decide +kernel, by decide +kernel⟩
  · exact Prod.ext (by decide +kernel) (Option.some_get _).symm
  · exact Prod.ext (by decide +kernel) rfl

open GRun in
/-- C36, violation: a global batch writes to a handle that is being closed; `GlobalBatch`
    (src/global_batch.cc:27-140) never asks. -/
theorem C36_closing_global_batch_violation :
    ∃ (dbs : Nat → DB Nat (Flat Nat)) (b : Nat → List (Rec Nat)) (t : Nat),
      (∀ i, i < 2 → (dbs i).closing = true) ∧ (after 2 (start 2 dbs b) t).status = .ok ∧
      (after 2 (start 2 dbs b) t).code = [] ∧
      (dbs 0).getMaxSeqNum = some 3 ∧ ((after 2 (start 2 dbs b) t).view 0).getMaxSeqNum = some 6 :=
  ⟨fun i => { GlobalEx.dbs i with closing := true }, GlobalEx.bs, 40,
    fun _ _ => rfl, by decide +kernel, by decide +kernel, by decide +kernel, by decide +kernel⟩

end Jungle
