/-
  The table writers (src/table_writer.h, src/table_writer.cc): threads that the flushes and compactions of
  all databases of a process share.  A call leases idle writers, gives each of them one job, does one job
  itself, waits for the others, returns the writers, and goes on with the next jobs
  (src/table_set_batch.cc:211-290, src/table_compaction.cc:405-482, src/table_split.cc:251-310).

  Calls and writers run in any interleaving.  Simplifications: the write of a job is one step
  (the jobs of a call write to different files); the event awaiters are left out, a writer may look at
  its payload at any time, as it does every second in the code (src/table_writer.cc:134).
-/
import Mathlib.Order.Nat

namespace Jungle.Writer

/-- `DBConfig::getMaxParallelWriters` (src/db_config.cc:46-68).  The pool is initialised. -/
def maxParallelWriters (perJob : Nat) (readOnly : Bool) (numWriters flushers compactors : Nat) : Nat :=
  if perJob ≠ 0 then perJob
  else if readOnly then 1
  else if flushers + compactors = 0 then 1
  else
    let ret := (numWriters + (flushers + compactors) * 2 - 1) / (flushers + compactors)
    if ret = 0 then 1
    else if ret = 1 ∧ numWriters ≠ 0 then 2
    else ret

/-- The job with index `.2` of the call `.1`. -/
abbrev Job := Nat × Nat

/-- Where a call is.  `ii`: the first job of the round; `ws`: `leasedWriters`; `jj`: the next job to be
    given away (src/table_set_batch.cc:227); `i`: the writer it waits for (273-280). -/
inductive PC
  | start (ii : Nat)
  | put (ii : Nat) (ws : List Nat) (jj : Nat)
  | wait (ii : Nat) (ws : List Nat) (i : Nat)
  | fin
  deriving DecidableEq, Repr

/-- `W`: number of writers; `n`: number of jobs of a call; `mx`: its `max_writers`; `skip`: the jobs
    without a target table (src/table_set_batch.cc:241-249, src/table_compaction.cc:431). -/
structure Conf where
  W : Nat
  n : Nat → Nat
  mx : Nat → Nat
  skip : Nat → Nat → Bool

/-- `inUse`: `TableWriterPkg::inUse`; `slot`: the payload of a writer, with a flag that says that it has
    been written and only `payload.reset()` is missing; `done`: the jobs written so far. -/
structure Sys where
  inUse : Nat → Bool
  slot : Nat → Option (Job × Bool)
  pc : Nat → PC
  done : List Job

def upd {α : Type} (f : Nat → α) (i : Nat) (a : α) : Nat → α := fun j => if j = i then a else f j

/-- `TableWriterMgr::leaseWriters` (src/table_writer.cc:97-114), under `globalLock`. -/
def lease (W : Nat) (inUse : Nat → Bool) (num : Nat) : List Nat :=
  ((List.range W).filter (fun w => !inUse w)).take num

/-- `max_writers` limits the round (src/table_set_batch.cc:217-221). -/
def request (g : Conf) (c ii : Nat) : Nat := min (ii + g.mx c) (g.n c) - ii - 1

/-- All calls `< C` begin, the others do not exist. -/
def init (C : Nat) : Sys where
  inUse _ := false
  slot _ := none
  pc c := if c < C then .start 0 else .fin
  done := []

/-- One step of a call or of a writer. -/
inductive Step (g : Conf) : Sys → Sys → Prop
  /-- a round begins (src/table_set_batch.cc:216-225) -/
  | lease (s : Sys) (c ii : Nat) : s.pc c = .start ii → ii < g.n c →
      Step g s { s with
        inUse := fun w => s.inUse w || decide (w ∈ lease g.W s.inUse (request g c ii))
        pc := upd s.pc c (.put ii (lease g.W s.inUse (request g c ii)) ii) }
  /-- all rounds are done, the call returns -/
  | finish (s : Sys) (c ii : Nat) : s.pc c = .start ii → ¬ ii < g.n c →
      Step g s { s with pc := upd s.pc c .fin }
  /-- a job for a leased writer (src/table_set_batch.cc:251-265) -/
  | give (s : Sys) (c ii : Nat) (ws : List Nat) (jj w : Nat) : s.pc c = .put ii ws jj →
      ws[jj - ii]? = some w → g.skip c jj = false →
      Step g s { s with
        slot := upd s.slot w (some ((c, jj), false))
        pc := upd s.pc c (.put ii ws (jj + 1)) }
  /-- no target, the writer gets nothing (src/table_set_batch.cc:241-249) -/
  | giveNone (s : Sys) (c ii : Nat) (ws : List Nat) (jj w : Nat) : s.pc c = .put ii ws jj →
      ws[jj - ii]? = some w → g.skip c jj = true →
      Step g s { s with pc := upd s.pc c (.put ii ws (jj + 1)) }
  /-- the last job of the round is done by this thread (src/table_set_batch.cc:266-269) -/
  | own (s : Sys) (c ii : Nat) (ws : List Nat) (jj : Nat) : s.pc c = .put ii ws jj →
      ws[jj - ii]? = none →
      Step g s { s with
        done := if g.skip c jj then s.done else s.done ++ [(c, jj)]
        pc := upd s.pc c (.wait ii ws 0) }
  /-- a writer is found to have no payload (src/table_set_batch.cc:273-280) -/
  | next (s : Sys) (c ii : Nat) (ws : List Nat) (i w : Nat) : s.pc c = .wait ii ws i →
      ws[i]? = some w → s.slot w = none →
      Step g s { s with pc := upd s.pc c (.wait ii ws (i + 1)) }
  /-- `TableWriterMgr::returnWriters` (src/table_writer.cc:116-122) and the next round -/
  | back (s : Sys) (c ii : Nat) (ws : List Nat) (i : Nat) : s.pc c = .wait ii ws i →
      ws[i]? = none →
      Step g s { s with
        inUse := fun w => s.inUse w && !decide (w ∈ ws)
        pc := upd s.pc c (.start (ii + ws.length + 1)) }
  /-- a writer writes (src/table_writer.cc:138-140) -/
  | run (s : Sys) (w : Nat) (j : Job) : s.slot w = some (j, false) →
      Step g s { s with slot := upd s.slot w (some (j, true)), done := s.done ++ [j] }
  /-- a writer clears its payload (src/table_writer.cc:143) -/
  | clear (s : Sys) (w : Nat) (j : Job) : s.slot w = some (j, true) →
      Step g s { s with slot := upd s.slot w none }

/-- States of all schedules. -/
inductive Reach (g : Conf) (C : Nat) : Sys → Prop
  | init : Reach g C (init C)
  | step {s s' : Sys} : Reach g C s → Step g s s' → Reach g C s'

/-- Schedules of `m` steps. -/
inductive Run (g : Conf) (C : Nat) : Nat → Sys → Prop
  | init : Run g C 0 (init C)
  | step {m : Nat} {s s' : Sys} : Run g C m s → Step g s s' → Run g C (m + 1) s'

/-- The jobs of a call that are written, in the order in which they were. -/
def Sys.written (s : Sys) (c : Nat) : List Nat := (s.done.filter (fun j => j.1 == c)).map (·.2)

end Jungle.Writer
