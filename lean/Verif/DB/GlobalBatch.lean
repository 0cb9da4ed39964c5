/-
  Model of a global batch over several DBs (src/global_batch.cc) and of the readers of these DBs
  while it runs.
-/
import Verif.DB.Model

namespace Jungle
variable {K : Type} [LinearOrder K] {S : TableSys K}

/-- `max_seq_out` of `LogMgr::setMultiInternal` (src/log_mgr.cc:820). -/
def LogMgr.newestMax (l : LogMgr K) : Nat :=
  match l.file? l.maxNum with
  | some f => f.mem.maxSeqNum
  | none => 0

/-- A DB and the two fields of its log manager that only global batches use
    (src/log_mgr.h:440-451): `fwd` is `fwdVisibleSeqBarrier`, `attached` says that
    `globalBatchStatus` points to the status object of the running batch.  `db.log.barrier` is
    `visibleSeqBarrier`. -/
structure GDb (K : Type) [LinearOrder K] (S : TableSys K) where
  db : DB K S
  fwd : Nat := 0
  attached : Bool := false

namespace GDb

/-- `LogMgr::getVisibleSeqBarrier` (src/log_mgr.cc:739-760); `visible`: the status object says
    VISIBLE.  Simplification: its loads happen at one moment. -/
def barrier (g : GDb K S) (visible : Bool) : Nat :=
  if g.fwd ≠ 0 ∧ g.attached = true ∧ visible = true then g.fwd else g.db.log.barrier

/-- What a reader of this DB works on. -/
def view (g : GDb K S) (visible : Bool) : DB K S :=
  { g.db with log := { g.db.log with barrier := g.barrier visible } }

end GDb

/-- The steps of `GlobalBatchExecutor::execute` (src/global_batch.cc:67-138) after the write
    mutexes of all DBs are locked.  `i` is the position of the DB in the batch. -/
inductive GInstr (K : Type)
  /-- `setVisibleSeqBarrier(max_seq)` (76-82) -/
  | setBarrier (i : Nat)
  /-- `checkBatchValidity` (97-100) -/
  | check (i : Nat) (b : List (Rec K))
  /-- `setMultiInternal` (112), one record per step -/
  | puts (i : Nat) (todo : List (Rec K))
  /-- `setGlobalBatch(new_max_seq, gb_status)` (117; src/log_mgr.cc:733-735) -/
  | attach (i : Nat)
  /-- its second half (src/log_mgr.cc:736) -/
  | setFwd (i : Nat)
  /-- `curStatus.store(VISIBLE)` (125) -/
  | publish
  /-- `setVisibleSeqBarrier(0)` (90) -/
  | clear (i : Nat)
  /-- `setGlobalBatch(0, nullptr)` (91; src/log_mgr.cc:733-735) -/
  | detach (i : Nat)
  /-- its second half (src/log_mgr.cc:736) -/
  | clearFwd (i : Nat)

/-- The state while a global batch runs; `visible` is the flag of its status object, `code` what
    is left to do. -/
structure GRun (K : Type) [LinearOrder K] (S : TableSys K) where
  dbs : Nat → GDb K S
  visible : Bool := false
  status : Status := .ok
  code : List (GInstr K)

namespace GRun

def upd (s : GRun K S) (i : Nat) (g : GDb K S) (c : List (GInstr K)) : GRun K S :=
  { s with dbs := fun j => if j = i then g else s.dbs j, code := c }

/-- The clean-up function (src/global_batch.cc:85-95), which also runs on an early return. -/
def cleanup (n : Nat) : List (GInstr K) :=
  (List.range n).flatMap (fun i => [.clear i, .detach i, .clearFwd i])

/-- `GlobalBatchExecutor::execute` for `n` DBs with the batches `b`. -/
def program (n : Nat) (b : Nat → List (Rec K)) : List (GInstr K) :=
  (List.range n).flatMap (fun i => [.setBarrier i]) ++
  ((List.range n).flatMap (fun i => [.check i (b i)]) ++
  ((List.range n).flatMap (fun i => [.puts i (b i)]) ++
  (.publish :: cleanup n)))

def start (n : Nat) (dbs : Nat → DB K S) (b : Nat → List (Rec K)) : GRun K S :=
  { dbs := fun i => { db := dbs i }, code := program n b }

/-- One step.  Not modelled: writers that take a write mutex after the clean-up of that DB.  A
    batch without records makes `checkBatchValidity` dereference the end of an empty list. -/
def step (n : Nat) (s : GRun K S) : GRun K S :=
  match s.code with
  | [] => s
  | .setBarrier i :: c =>
    let g := s.dbs i
    s.upd i { g with db := { g.db with log := { g.db.log with barrier := g.db.log.getMaxSeqNum.getD 0 } } } c
  | .check i b :: c =>
    if b = [] then { s with status := .undefinedBehaviour, code := [] }
    else
      match (s.dbs i).db.log.checkBatchValidity b with
      | .ok => { s with code := c }
      | st => { s with status := st, code := cleanup n }
  | .puts i [] :: c => { s with code := .attach i :: .setFwd i :: c }
  | .puts i (r :: rs) :: c =>
    let g := s.dbs i
    match g.db.log.setMultiInternal [r] with
    | (.ok, l) => s.upd i { g with db := { g.db with log := l } } (.puts i rs :: c)
    | (_, l) => s.upd i { g with db := { g.db with log := l } } c
  | .attach i :: c => s.upd i { s.dbs i with attached := true } c
  | .setFwd i :: c =>
    let g := s.dbs i
    s.upd i { g with fwd := g.db.log.newestMax } c
  | .publish :: c => { s with visible := true, code := c }
  | .clear i :: c =>
    let g := s.dbs i
    s.upd i { g with db := { g.db with log := { g.db.log with barrier := 0 } } } c
  | .detach i :: c => s.upd i { s.dbs i with attached := false } c
  | .clearFwd i :: c => s.upd i { s.dbs i with fwd := 0 } c

/-- The state after `t` steps. -/
def after (n : Nat) (s : GRun K S) : Nat → GRun K S
  | 0 => s
  | t + 1 => after n (step n s) t

/-- What a reader of DB `i` works on in state `s`. -/
def view (s : GRun K S) (i : Nat) : DB K S := (s.dbs i).view s.visible

end GRun

namespace Spec

/-- Every read gives the same in `d` and `e`. -/
def SameReads (d e : DB K S) : Prop :=
  (∀ k, d.get k = e.get k ∧ d.getRecordByKey k = e.getRecordByKey k) ∧
  (∀ m, (d.getRecord m).2 = (e.getRecord m).2) ∧ d.getMaxSeqNum = e.getMaxSeqNum

end Spec
end Jungle
