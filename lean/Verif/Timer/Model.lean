/-
  Model of the timers behind `DB::flushLogsAsync` with a delay: the pool of timed tasks
  (src/simple_thread_pool.h) as Jungle sets it up (src/db_mgr.cc:179-181: no pool threads, the
  coordinator runs the tasks itself), the scheduling of a timer by a request
  (src/jungle.cc:531-548) and its cancellation when the DB is closed
  (src/jungle.cc:1020-1027).

  One coordinator thread and any number of callers.  The coordinator moves in steps between
  which the callers may act; what it does under `timedTasksLock` is a sequence of such steps
  during which no timer can be added, but a timer can be cancelled (`cancel` takes no lock).

  Left out: recurring tasks and tasks without delay (Jungle creates neither), `shutdown` of the
  pool, the queue of flush requests itself (Verif/Conc/FlusherQ) and the awaiter's own protocol
  (Verif/Conc/Awaiter), here a flag.  The clock does not go backwards.
-/
import Verif.Basic

namespace Jungle.Timer

/-- `TaskStatus` (src/simple_thread_pool.h:108-112). -/
inductive TStat | waiting | running | done
  deriving DecidableEq, Repr

/-- `TaskHandle` (src/simple_thread_pool.h:153-288): the DB whose handler it is, `tRegistered`,
    `intervalUs`, `status`. -/
structure Task where
  db : Nat
  reg : Nat
  interval : Nat
  st : TStat
  deriving DecidableEq, Repr

/-- `MAX_SLEEP_US` (src/simple_thread_pool.h:512). -/
def MAX_SLEEP : Nat := 1000000

/-- `busyWaitingIntervalUs` (src/simple_thread_pool.h:366). -/
def BUSY : Nat := 100

/-- Where the coordinator's loop stands (src/simple_thread_pool.h:508-606).  `sleep` is
    `next_sleep_us`. -/
inductive Co
  /-- in `eaLoop.wait_us` until `due` (line 517) -/
  | sleeping (due : Nat)
  /-- past the wait, before `eaLoop.reset` (line 523) -/
  | woke
  /-- under `timedTasksLock`, at position `pos` of the list (line 549) -/
  | scan (pos sleep : Nat)
  /-- under `timedTasksLock`, `id` erased from position `pos`, before `isDone` (line 561) -/
  | fire (id pos sleep : Nat)
  /-- lock released, before the exchange in `execute` (line 603, then line 200) -/
  | exec (id sleep : Nat)
  /-- in the handler, before it uses the DB (jungle.cc:541) -/
  | called (id sleep : Nat)
  /-- in the handler, before it wakes the flush workers (jungle.cc:542) -/
  | calling (id sleep : Nat)
  /-- after the handler, before the status becomes DONE (line 203) -/
  | ending (id sleep : Nat)
  /-- the C++ program has undefined behaviour from here on -/
  | undefined
  deriving DecidableEq, Repr

/-- What callers can observe, in order: a request for a DB that sets timer `id`; a request that
    relies on an earlier timer; the wake-up of the flush workers by timer `id`; `cancel` of timer
    `id` that returned true; the end of a DB. -/
inductive Ev
  | set (id db delay time : Nat)
  | relied (id db delay time : Nat)
  | woken (id time : Nat)
  | cancelled (id : Nat)
  | closed (db : Nat)
  deriving DecidableEq, Repr

/-- Tasks by number, `timedTasks`, `asyncFlushJob` of each DB, the coordinator, whether
    `eaLoop` was invoked since it was reset, the clock; `log` is ghost, and so are the times at
    which the last pass over the list began and ended and whether it ended by taking a task. -/
structure St where
  now : Nat
  tasks : List Task
  timed : List Nat
  job : List (Nat × Nat)
  dead : List Nat
  co : Co
  signal : Bool
  log : List Ev
  began : Nat
  ended : Nat
  took : Bool
  deriving DecidableEq, Repr

/-- `ThreadPoolMgr::init` and no DB: the coordinator enters its loop (line 513). -/
def St.init : St :=
  { now := 0, tasks := [], timed := [], job := [], dead := [], co := .sleeping (MAX_SLEEP - BUSY),
    signal := false, log := [], began := 0, ended := 0, took := false }

/-- `asyncFlushJob` of a DB. -/
def jobOf (s : St) (db : Nat) : Option Nat := (s.job.find? (fun p => p.1 = db)).map (·.2)

/-- status of a task -/
def statOf (s : St) (id : Nat) : Option TStat := (s.tasks[id]?).map (·.st)

def setStat (s : St) (id : Nat) (v : TStat) : List Task :=
  s.tasks.modify id (fun t => { t with st := v })

/-- Is `timedTasksLock` held by the coordinator? -/
def Co.locked : Co → Bool
  | .scan .. => true
  | .fire .. => true
  | _ => false

/-- Top of the loop (lines 515-521): wait, or not if the next task is close. -/
def rest (now sleep : Nat) : Co := if sleep > BUSY then .sleeping (now + (sleep - BUSY)) else .woke

/-- The end of a pass: top of the loop. -/
def St.rest (s : St) (sleep : Nat) (took : Bool) : St :=
  { s with co := Timer.rest s.now sleep, ended := s.now, took := took }

/-- One step of the coordinator (src/simple_thread_pool.h:515-605; `execute` 197-212;
    handler src/jungle.cc:538-543).  `none`: it is blocked in the wait. -/
def coStep (s : St) : Option St :=
  match s.co with
  | .sleeping due => if s.signal ∨ due ≤ s.now then some { s with co := .woke } else none
  | .woke => some { s with signal := false, co := .scan 0 MAX_SLEEP, began := s.now }
  | .scan pos sleep =>
    match s.timed[pos]? with
    | none => some (s.rest sleep false)
    | some id =>
      match s.tasks[id]? with
      | none => none
      | some t =>
        -- timeToFire (lines 176-187)
        if t.interval < s.now - t.reg then
          some { s with timed := s.timed.eraseIdx pos, co := .fire id pos sleep }
        else
          some { s with co := .scan (pos + 1) (min (min sleep (t.interval - (s.now - t.reg))) MAX_SLEEP) }
  | .fire id pos sleep =>
    if statOf s id = some .done then
      -- task_to_run.reset(), then entry++ (lines 561-569)
      if pos < s.timed.length then some { s with co := .scan (pos + 1) (min (min sleep 0) MAX_SLEEP) }
      else some { s with co := .undefined }
    else some { s with co := .exec id sleep }
  | .exec id sleep =>
    if statOf s id = some .waiting then
      some { s with tasks := setStat s id .running, co := .called id sleep }
    else some (s.rest sleep true)
  | .called id sleep =>
    match s.tasks[id]? with
    | none => none
    | some t =>
      if t.db ∈ s.dead then some { s with co := .undefined }
      else some { s with co := .calling id sleep }
  | .calling id sleep => some { s with log := s.log ++ [.woken id s.now], co := .ending id sleep }
  | .ending id sleep => some ({ s with tasks := setStat s id .done }.rest sleep true)
  | .undefined => none

/-- `flushLogsAsync` with a delay (src/jungle.cc:531-548; `addTask` 467-486): a new timer if the
    DB has none or its last one is done.  `none`: not possible now (DB closed, no delay, or the
    list is locked by the coordinator). -/
def request (s : St) (db delay : Nat) : Option St :=
  if db ∈ s.dead ∨ delay = 0 then none else
  let fresh : Option St :=
    if s.co.locked then none else
    let id := s.tasks.length
    some { s with
      tasks := s.tasks ++ [⟨db, s.now, delay, .waiting⟩]
      timed := s.timed ++ [id]
      job := (db, id) :: s.job
      signal := true
      log := s.log ++ [.set id db delay s.now] }
  match jobOf s db with
  | none => fresh
  | some id =>
    if statOf s id = some .done then fresh
    else some { s with log := s.log ++ [.relied id db delay s.now] }

/-- `DBInternal::destroy` (src/jungle.cc:1015-1052; `cancel` 220-234 of a one-time task): the
    timer is cancelled if it is still waiting, and the DB is freed. -/
def close (s : St) (db : Nat) : Option St :=
  if db ∈ s.dead then none else
  match jobOf s db with
  | none => some { s with dead := db :: s.dead, log := s.log ++ [.closed db] }
  | some id =>
    if statOf s id = some .waiting then
      some { s with tasks := setStat s id .done, dead := db :: s.dead
                    log := s.log ++ [.cancelled id, .closed db] }
    else some { s with dead := db :: s.dead, log := s.log ++ [.closed db] }

/-- Everything that can happen: time passes, the coordinator takes a step or its wait ends for no
    reason, a delayed flush is asked for, a DB is closed. -/
inductive Act
  | tick (n : Nat)
  | co
  | spurious
  | request (db delay : Nat)
  | close (db : Nat)
  deriving DecidableEq, Repr

/-- One action; `none` if it is not possible.  After undefined behaviour nothing is. -/
def step (s : St) : Act → Option St
  | .tick n => if s.co = .undefined then none else some { s with now := s.now + n }
  | .co => coStep s
  | .spurious => match s.co with
    | .sleeping _ => some { s with co := .woke }
    | _ => none
  | .request db delay => if s.co = .undefined then none else request s db delay
  | .close db => if s.co = .undefined then none else close s db

/-- Histories.  With `quiet` a DB is closed only when it has no timer left that is not done. -/
inductive Reach (quiet : Bool) : St → Prop
  | init : Reach quiet .init
  | step {s s' : St} (a : Act) (h : Reach quiet s)
      (hq : quiet = true → ∀ db, a = .close db → ∀ id, jobOf s db = some id → statOf s id = some .done)
      (e : step s a = some s') : Reach quiet s'

/-- A run of a list of actions. -/
def run (s : St) : List Act → Option St
  | [] => some s
  | a :: as => (step s a).bind (run · as)

end Jungle.Timer
