/-
  Model of closing a database while background workers use it: the map of open databases and its lock
  (src/db_mgr.cc:297-397, src/db_mgr.h:160-175), `incBgTask` / `decBgTask` (src/db_internal.h:94-105),
  `DBInternal::destroy` and `waitForBgTasks` (src/jungle.cc:1015-1069), `Flusher::work`
  (src/flusher.cc:138-296), the choice of a database in `Compactor::work` (src/compactor.cc:98-270),
  `LogReclaimer::work` (src/log_reclaimer.cc:50-80) and `CmdHandler::work` (src/cmd_handler.cc:74-95).
  Any number of databases and threads, every interleaving of their atomic steps.  A section that holds
  `dbMapLock` from its beginning to its end is one step, except the closing, which waits inside it.
  Not modelled here: the reference counts of handles and the races of `open` with `close` (that is
  `Verif/Conc/Handles.lean`), and what a flush or a compaction does to the data.
-/
import Mathlib.Data.List.Count
import Verif.Basic

set_option linter.unusedSimpArgs false
set_option linter.unusedSectionVars false

namespace Jungle.Bg

/-- A queued request for a flush: the address of the `DB` object, and (not in the code: for the
    statements) the database the caller meant, as a number that is new for every `open`.
    Models `FlusherQueueElem` (src/flusher.h:30-75), of it only `targetDb`. -/
structure Req where
  addr : Nat
  db : Nat
  deriving DecidableEq, Repr

/-- Where a thread is. -/
inductive PC
  /-- between two calls -/
  | idle
  /-- a flusher has popped a request and has not looked its database up yet (flusher.cc:149-153) -/
  | popped (r : Req)
  /-- in a flush or a compaction of the database at this address (flusher.cc:210-250,
      compactor.cc:218-262) -/
  | busy (a : Nat) (r : Option Req)
  /-- in the user's callback of the request (flusher.cc:256-264) -/
  | handler (a : Nat)
  /-- `decBgTask` comes next (flusher.cc:288, compactor.cc:268) -/
  | ending (a : Nat)
  /-- `DBMgr::close` has removed the database at `a` from the map and waits, for `t` rounds so far,
      holding `dbMapLock` (db_mgr.cc:355-363, jungle.cc:1060-1066).  `b`: the background task in whose
      callback `close` was called, if so. -/
  | wait (a t : Nat) (b : Option Nat)
  /-- the reclaimer of log files, or the command handler: addresses of databases found in the map, used
      after the lock was released (log_reclaimer.cc:74-77, cmd_handler.cc:92-94) -/
  | seen (l : List Nat)
  deriving DecidableEq, Repr

/-- the thread is in a counted background task of the database at `a` -/
def PC.task (a : Nat) : PC → Bool
  | .busy b _ => b == a
  | .handler b => b == a
  | .ending b => b == a
  | .wait _ _ (some b) => b == a
  | _ => false

/-- the thread has the address `a` in its list of databases still to visit -/
def PC.sees (a : Nat) : PC → Bool
  | .seen l => l.contains a
  | _ => false

/-- the request the thread has taken and not yet answered -/
def PC.req : PC → Option Req
  | .popped r => some r
  | .busy _ r => r
  | _ => none

/-- it has one for database `d` -/
def PC.holds (d : Nat) (p : PC) : Bool := p.req.map Req.db == some d

def PC.isWait : PC → Bool
  | .wait _ _ _ => true
  | _ => false

structure St where
  /-- what is at an address: the database opened there, or nothing (never used, or freed) -/
  mem : Nat → Option Nat := fun _ => none
  /-- `dbMap` -/
  map : Nat → Bool := fun _ => false
  /-- `onGoingBgTasks` of the object at the address -/
  cnt : Nat → Nat := fun _ => 0
  /-- the address was given out by the allocator once -/
  used : Nat → Bool := fun _ => false
  /-- the queue of flush requests -/
  queue : List Req := []
  /-- `dbMapLock` is held across steps -/
  locked : Bool := false
  /-- number of `open`s so far -/
  next : Nat := 0
  /-- requests made (not in the code): the database meant -/
  asked : List Nat := []
  /-- answered requests: the database meant, and the one that was flushed -/
  ran : List (Nat × Option Nat) := []
  /-- requests answered with DB_HANDLE_NOT_FOUND: the database meant -/
  notFound : List Nat := []
  /-- freed memory was used -/
  bad : Bool := false
  pcs : List PC

def St.at (s : St) (i : Nat) (p : PC) : Prop := s.pcs[i]? = some p

def St.goto (s : St) (i : Nat) (p : PC) : St := { s with pcs := s.pcs.set i p }

def upd {α : Type} (f : Nat → α) (n : Nat) (v : α) : Nat → α := fun m => if m = n then v else f m

/-- Use of the object at `a`. -/
def St.touch (s : St) (a : Nat) : St := { s with bad := s.bad || (s.mem a).isNone }

/-- `incBgTask` / `decBgTask` (src/db_internal.h:94-101). -/
def St.inc (s : St) (a : Nat) : St := { s with cnt := upd s.cnt a (s.cnt a + 1) }
def St.dec (s : St) (a : Nat) : St := { s with cnt := upd s.cnt a (s.cnt a - 1) }

/-- `MAX_CLOSE_RETRY` (src/db_internal.h:45), rounds of 100 ms. -/
def maxCloseRetry : Nat := 100

/-- Where a thread goes on after `close` returns. -/
def back : Option Nat → PC
  | none => .idle
  | some b => .handler b

/-- One atomic step of thread `i`.  `reuse`: the allocator may give out an address that was freed. -/
inductive Step (reuse : Bool) : St → Nat → St → Prop
  /-- `DB::open` of a database that is not open, `assignNew` (db_mgr.cc:317-340): as one step -/
  | opened {s i a} : s.at i .idle → s.locked = false → s.mem a = none →
      (reuse = true ∨ s.used a = false) →
      Step reuse s i { s with
        mem := upd s.mem a (some s.next), map := upd s.map a true, cnt := upd s.cnt a 0
        used := upd s.used a true, next := s.next + 1 }
  /-- `asyncFlushLogs` by a caller with a handle -/
  | request {s i a d} : s.at i .idle → s.map a = true → s.mem a = some d →
      Step reuse s i { s with queue := s.queue ++ [⟨a, d⟩], asked := s.asked ++ [d] }
  /-- flusher.cc:149 -/
  | pop {s i r q} : s.at i .idle → s.queue = r :: q →
      Step reuse s i ({ s with queue := q }.goto i (.popped r))
  /-- flusher.cc:152-167: the object of this address is in the map -/
  | found {s i r} : s.at i (.popped r) → s.locked = false → s.map r.addr = true →
      Step reuse s i ((s.inc r.addr).goto i (.busy r.addr (some r)))
  /-- flusher.cc:252-253: it is not; the callbacks get DB_HANDLE_NOT_FOUND -/
  | stale {s i r} : s.at i (.popped r) → s.locked = false → s.map r.addr = false →
      Step reuse s i ({ s with notFound := s.notFound ++ [r.db] }.goto i .idle)
  /-- flusher.cc:168-209, compactor.cc:118-216: a database of the map is chosen -/
  | pick {s i a} : s.at i .idle → s.locked = false → s.map a = true →
      Step reuse s i ((s.inc a).goto i (.busy a none))
  /-- the flush or compaction uses the database -/
  | work {s i a r} : s.at i (.busy a r) → Step reuse s i (s.touch a)
  /-- it ends; flusher.cc:256: the callback of a request is called -/
  | answer {s i a r} : s.at i (.busy a (some r)) →
      Step reuse s i ({ s.touch a with ran := s.ran ++ [(r.db, s.mem a)] }.goto i (.handler a))
  | worked {s i a} : s.at i (.busy a none) → Step reuse s i ((s.touch a).goto i (.ending a))
  | returned {s i a} : s.at i (.handler a) → Step reuse s i (s.goto i (.ending a))
  /-- `decBgTask` -/
  | ended {s i a} : s.at i (.ending a) → Step reuse s i (((s.touch a).dec a).goto i .idle)
  /-- `DBMgr::close` of the last handle (db_mgr.cc:355-357), by a caller or in a callback -/
  | close {s i a} : s.at i .idle → s.locked = false → s.map a = true →
      Step reuse s i ({ s with map := upd s.map a false, locked := true }.goto i (.wait a 0 none))
  | closeInHandler {s i a b} : s.at i (.handler b) → s.locked = false → s.map a = true →
      Step reuse s i
        ({ s with map := upd s.map a false, locked := true }.goto i (.wait a 0 (some b)))
  /-- jungle.cc:1063-1066 -/
  | tick {s i a t b} : s.at i (.wait a t b) → s.cnt a ≠ 0 → t < maxCloseRetry →
      Step reuse s i (s.goto i (.wait a (t + 1) b))
  /-- the wait ends; the object is freed and the lock released (jungle.cc:1022-1050, db_mgr.cc:363-366) -/
  | destroy {s i a t b} : s.at i (.wait a t b) → (s.cnt a = 0 ∨ maxCloseRetry ≤ t) →
      Step reuse s i ({ s.touch a with mem := upd s.mem a none, locked := false }.goto i (back b))
  /-- log_reclaimer.cc:58-72, cmd_handler.cc:74-90: addresses are taken from the map -/
  | scan {s i l} : s.at i .idle → s.locked = false → (∀ a ∈ l, s.map a = true) →
      Step reuse s i (s.goto i (.seen l))
  /-- log_reclaimer.cc:76-79, cmd_handler.cc:92-94: they are used -/
  | visit {s i a l} : s.at i (.seen (a :: l)) → Step reuse s i ((s.touch a).goto i (.seen l))
  | visited {s i} : s.at i (.seen []) → Step reuse s i (s.goto i .idle)

/-- All executions of `k` threads. -/
inductive Reach (reuse : Bool) (k : Nat) : St → Prop
  | init : Reach reuse k { pcs := List.replicate k .idle }
  | step {s i s'} : Reach reuse k s → Step reuse s i s' → Reach reuse k s'

/-- When a wait has reached its limit, no background task of the database is left. -/
def St.InTime (s : St) : Prop :=
  ∀ i a t b, s.at i (.wait a t b) → maxCloseRetry ≤ t → ∀ j p, s.at j p → p.task a = false

/-- No database that is being closed is still to be visited by the reclaimer or the command handler. -/
def St.Unseen (s : St) : Prop :=
  ∀ i a t b, s.at i (.wait a t b) → ∀ j p, s.at j p → p.sees a = false

/-- Executions in which every state has both properties. -/
inductive CalmReach (reuse : Bool) (k : Nat) : St → Prop
  | init : CalmReach reuse k { pcs := List.replicate k .idle }
  | step {s i s'} : CalmReach reuse k s → s.InTime → s.Unseen → Step reuse s i s' →
      CalmReach reuse k s'

/-- A part of an execution, with the threads that made its steps. -/
inductive Run (reuse : Bool) : St → List Nat → St → Prop
  | nil {s} : Run reuse s [] s
  | cons {s i s1 l s2} : Step reuse s i s1 → Run reuse s1 l s2 → Run reuse s (i :: l) s2

theorem CalmReach.reach {reuse : Bool} {k : Nat} {s : St} (h : CalmReach reuse k s) :
    Reach reuse k s := by
  induction h with
  | init => exact Reach.init
  | step _ _ _ h2 ih => exact Reach.step ih h2

/-! ### lemmas -/

theorem at_goto {s : St} {i j : Nat} {p q : PC} (h : (s.goto i p).at j q) :
    (j = i ∧ q = p) ∨ (j ≠ i ∧ s.at j q) := by
  unfold St.at St.goto at h
  simp only [List.getElem?_set] at h
  by_cases e : i = j
  · subst e
    rw [if_pos rfl] at h
    split at h
    · cases h; exact Or.inl ⟨rfl, rfl⟩
    · cases h
  · rw [if_neg e] at h; exact Or.inr ⟨fun e' => e e'.symm, h⟩

theorem goto_at {s : St} {i : Nat} {p q : PC} (h : s.at i p) : (s.goto i q).at i q := by
  unfold St.at St.goto at *
  obtain ⟨hi, -⟩ := List.getElem?_eq_some_iff.1 h
  simp [hi]

theorem goto_at_ne {s : St} {i j : Nat} {p q : PC} (h : s.at j p) (e : j ≠ i) :
    (s.goto i q).at j p := by
  unfold St.at St.goto at *
  simp only [List.getElem?_set]
  rw [if_neg (fun e' => e e'.symm)]; exact h

theorem at_unique {s : St} {i : Nat} {p q : PC} (h : s.at i p) (h' : s.at i q) : p = q := by
  unfold St.at at *; rw [h] at h'; cases h'; rfl

/-- number of background tasks of the database at `a` -/
def St.tasks (s : St) (a : Nat) : Nat := s.pcs.countP (PC.task a)

theorem countP_set' (f : PC → Bool) {l : List PC} {i : Nat} {a b : PC} (h : l[i]? = some a) :
    (l.set i b).countP f + (if f a then 1 else 0) = l.countP f + (if f b then 1 else 0) := by
  obtain ⟨hi, e⟩ := List.getElem?_eq_some_iff.1 h
  rw [List.countP_set hi, e]
  by_cases h1 : f a
  · have : 0 < l.countP f := by
      rw [List.countP_pos_iff]; exact ⟨a, e ▸ List.getElem_mem hi, h1⟩
    simp only [h1, if_true]; omega
  · simp only [h1]; simp

theorem tasks_goto {s : St} {i : Nat} {p q : PC} (a : Nat) (h : s.at i p) :
    (s.goto i q).tasks a + (if p.task a then 1 else 0) = s.tasks a + (if q.task a then 1 else 0) :=
  countP_set' (PC.task a) h

theorem tasks_pos {s : St} {i : Nat} {p : PC} {a : Nat} (h : s.at i p) (ht : p.task a = true) :
    0 < s.tasks a := by
  unfold St.tasks
  rw [List.countP_pos_iff]
  exact ⟨p, List.mem_of_getElem? h, ht⟩

theorem tasks_zero {s : St} {a : Nat} (h : ∀ j p, s.at j p → p.task a = false) : s.tasks a = 0 := by
  unfold St.tasks
  rw [List.countP_eq_zero]
  intro p hp
  obtain ⟨j, hj⟩ := List.getElem?_of_mem hp
  rw [h j p hj]; simp

/-! ### invariants of all executions -/

structure Base (s : St) : Prop where
  mapped : ∀ a, s.map a = true → s.mem a ≠ none
  waiting : ∀ i a t b, s.at i (.wait a t b) →
    s.locked = true ∧ s.mem a ≠ none ∧ s.map a = false ∧ t ≤ maxCloseRetry
  one : ∀ i a t b j a' t' b', s.at i (.wait a t b) → s.at j (.wait a' t' b') → i = j

theorem at_replicate {k i : Nat} {p : PC}
    (h : ({ pcs := List.replicate k PC.idle } : St).at i p) : p = .idle := by
  unfold St.at at h
  simp only [List.getElem?_replicate] at h
  split at h
  · cases h; rfl
  · cases h

theorem Base.init (k : Nat) : Base { pcs := List.replicate k .idle } :=
  ⟨fun _ h => (nomatch h), fun _ _ _ _ h => (nomatch (at_replicate h)),
   fun _ _ _ _ _ _ _ _ h => (nomatch (at_replicate h))⟩

/-- A step that changes neither the map, nor the memory, nor the lock, and after which thread `i` does
    not wait. -/
theorem Base.keep {s s' : St} {i : Nat} {p : PC} (h : Base s) (hp : p.isWait = false)
    (h1 : s'.mem = s.mem) (h2 : s'.map = s.map) (h3 : s'.locked = s.locked)
    (h4 : s'.pcs = s.pcs.set i p) : Base s' := by
  have g : ∀ j q, s'.at j q → q.isWait = true → s.at j q := by
    intro j q hj hq
    have : (s.goto i p).at j q := by unfold St.at St.goto at *; rw [← h4]; exact hj
    rcases at_goto this with ⟨-, e⟩ | ⟨-, e⟩
    · rw [e, hp] at hq; cases hq
    · exact e
  refine ⟨?_, ?_, ?_⟩
  · intro a ha; rw [h1]; rw [h2] at ha; exact h.mapped a ha
  · intro j a t b hj
    rw [h1, h2, h3]; exact h.waiting j a t b (g _ _ hj rfl)
  · intro j a t b j' a' t' b' hj hj'
    exact h.one _ _ _ _ _ _ _ _ (g _ _ hj rfl) (g _ _ hj' rfl)

theorem set_self {s : St} {i : Nat} {p : PC} (h : s.at i p) : s.pcs.set i p = s.pcs := by
  unfold St.at at h
  obtain ⟨hi, e⟩ := List.getElem?_eq_some_iff.1 h
  subst e; exact List.set_getElem_self hi

theorem no_wait {s : St} (h : Base s) (hl : s.locked = false) {j a t : Nat} {b : Option Nat} :
    ¬ s.at j (.wait a t b) := fun hj => by
  have := (h.waiting j a t b hj).1; rw [hl] at this; cases this

theorem Base.close {s : St} {i a : Nat} {b : Option Nat} (h : Base s) (hl : s.locked = false)
    (hm : s.map a = true) :
    Base ({ s with map := upd s.map a false, locked := true }.goto i (.wait a 0 b)) := by
  refine ⟨?_, ?_, ?_⟩
  · intro c hc
    simp only [St.goto, upd] at hc ⊢
    split at hc
    · cases hc
    · exact h.mapped c hc
  · intro j c t b' hj
    rcases at_goto hj with ⟨-, e⟩ | ⟨-, e⟩
    · cases e
      exact ⟨rfl, h.mapped _ hm, by simp [St.goto, upd], Nat.zero_le _⟩
    · exact absurd e (no_wait h hl)
  · intro j c t b' j' c' t' b'' hj hj'
    rcases at_goto hj with ⟨e, -⟩ | ⟨-, e⟩
    · rcases at_goto hj' with ⟨e', -⟩ | ⟨-, e'⟩
      · rw [e, e']
      · exact absurd e' (no_wait h hl)
    · exact absurd e (no_wait h hl)

theorem Base.step {reuse : Bool} {s s' : St} {i : Nat} (h : Base s) (hs : Step reuse s i s') :
    Base s' := by
  cases hs with
  | @opened a h1 h2 h3 h4 =>
    refine ⟨?_, ?_, ?_⟩
    · intro c hc
      simp only [upd] at hc ⊢
      split
      · simp
      · rename_i hne
        rw [if_neg hne] at hc; exact h.mapped c hc
    · intro j c t b hj; exact absurd hj (no_wait h h2)
    · intro j c t b j' c' t' b' hj; exact absurd hj (no_wait h h2)
  | request h1 h2 h3 => exact h.keep (i := i) (p := .idle) rfl rfl rfl rfl (set_self h1).symm
  | pop h1 h2 => exact h.keep (i := i) (p := _) rfl rfl rfl rfl rfl
  | found h1 h2 h3 => exact h.keep (i := i) (p := _) rfl rfl rfl rfl rfl
  | stale h1 h2 h3 => exact h.keep (i := i) (p := .idle) rfl rfl rfl rfl rfl
  | pick h1 h2 h3 => exact h.keep (i := i) (p := _) rfl rfl rfl rfl rfl
  | @work a r h1 => exact h.keep (i := i) (p := .busy a r) rfl rfl rfl rfl (set_self h1).symm
  | answer h1 => exact h.keep (i := i) (p := _) rfl rfl rfl rfl rfl
  | worked h1 => exact h.keep (i := i) (p := _) rfl rfl rfl rfl rfl
  | returned h1 => exact h.keep (i := i) (p := _) rfl rfl rfl rfl rfl
  | ended h1 => exact h.keep (i := i) (p := .idle) rfl rfl rfl rfl rfl
  | close h1 h2 h3 => exact h.close h2 h3
  | closeInHandler h1 h2 h3 => exact h.close h2 h3
  | @tick a t b h1 h2 h3 =>
    have hw := h.waiting _ _ _ _ h1
    refine ⟨h.mapped, ?_, ?_⟩
    · intro j c t' b' hj
      rcases at_goto hj with ⟨-, e⟩ | ⟨-, e⟩
      · cases e; exact ⟨hw.1, hw.2.1, hw.2.2.1, h3⟩
      · exact h.waiting _ _ _ _ e
    · intro j c t' b' j' c' t'' b'' hj hj'
      rcases at_goto hj with ⟨e1, -⟩ | ⟨-, e⟩
      · rcases at_goto hj' with ⟨e2, -⟩ | ⟨-, e'⟩
        · rw [e1, e2]
        · exact e1.trans (h.one _ _ _ _ _ _ _ _ h1 e')
      · rcases at_goto hj' with ⟨e2, -⟩ | ⟨-, e'⟩
        · exact e2 ▸ h.one _ _ _ _ _ _ _ _ e h1
        · exact h.one _ _ _ _ _ _ _ _ e e'
  | @destroy a t b h1 h2 =>
    have hw := h.waiting _ _ _ _ h1
    have hb : (back b).isWait = false := by cases b <;> rfl
    have g : ∀ j c t' b', ¬ ({ s.touch a with mem := upd s.mem a none, locked := false }.goto i
        (back b)).at j (.wait c t' b') := by
      intro j c t' b' hj
      rcases at_goto hj with ⟨-, e⟩ | ⟨e1, e⟩
      · rw [← e] at hb; cases hb
      · exact e1 (h.one _ _ _ _ _ _ _ _ e h1)
    refine ⟨?_, fun j c t' b' hj => absurd hj (g _ _ _ _), fun j c t' b' _ _ _ _ hj => absurd hj (g _ _ _ _)⟩
    intro c hc
    simp only [St.goto, St.touch, upd] at hc ⊢
    split
    · rename_i e; subst e; rw [hw.2.2.1] at hc; cases hc
    · exact h.mapped c hc
  | scan h1 h2 h3 => exact h.keep (i := i) (p := _) rfl rfl rfl rfl rfl
  | visit h1 => exact h.keep (i := i) (p := _) rfl rfl rfl rfl rfl
  | visited h1 => exact h.keep (i := i) (p := .idle) rfl rfl rfl rfl rfl

theorem Reach.base {reuse : Bool} {k : Nat} {s : St} (h : Reach reuse k s) : Base s := by
  induction h with
  | init => exact Base.init k
  | step _ h2 ih => exact ih.step h2

/-! ### invariant of executions without long tasks and without uncounted users -/

structure Inv (s : St) : Prop where
  count : ∀ a, s.mem a ≠ none → s.cnt a = s.tasks a
  freed : ∀ a, s.mem a = none → s.tasks a = 0
  unseen : ∀ a, s.mem a = none → ∀ j p, s.at j p → p.sees a = false
  good : s.bad = false

theorem Inv.init (k : Nat) : Inv { pcs := List.replicate k .idle } := by
  have z : ∀ a, ({ pcs := List.replicate k PC.idle } : St).tasks a = 0 := fun a =>
    tasks_zero (fun j p hp => by rw [at_replicate hp]; rfl)
  exact ⟨fun a _ => (z a).symm, fun a _ => z a, fun a _ j p hp => by rw [at_replicate hp]; rfl, rfl⟩

theorem Inv.alive {s : St} {i a : Nat} {p : PC} (h : Inv s) (hp : s.at i p) (ht : p.task a = true) :
    s.mem a ≠ none := fun e => by
  have := h.freed a e
  have := tasks_pos hp ht
  omega

theorem touch_eq {s : St} {a : Nat} (h : s.mem a ≠ none) : s.touch a = s := by
  unfold St.touch
  cases e : s.mem a with
  | none => exact absurd e h
  | some d => simp

/-- A step that changes neither the memory nor a count, between two program points with the same
    task. -/
theorem Inv.keep {s s' : St} {i : Nat} {p q : PC} (h : Inv s) (hp : s.at i p)
    (ht : ∀ a, q.task a = p.task a) (hsee : ∀ a, q.sees a = true → s.mem a ≠ none)
    (h1 : s'.mem = s.mem) (h2 : s'.cnt = s.cnt) (h3 : s'.bad = s.bad)
    (h4 : s'.pcs = s.pcs.set i q) : Inv s' := by
  have hT : ∀ a, s'.tasks a = s.tasks a := by
    intro a
    have := tasks_goto (q := q) a hp
    rw [ht a] at this
    have e : s'.tasks a = (s.goto i q).tasks a := by unfold St.tasks St.goto; rw [h4]
    omega
  refine ⟨?_, ?_, ?_, h3.trans h.good⟩
  · intro a ha; rw [h2, hT]; rw [h1] at ha; exact h.count a ha
  · intro a ha; rw [hT]; rw [h1] at ha; exact h.freed a ha
  · intro a ha j r hj
    rw [h1] at ha
    have : (s.goto i q).at j r := by unfold St.at St.goto at *; rw [← h4]; exact hj
    rcases at_goto this with ⟨-, e⟩ | ⟨-, e⟩
    · cases hq : r.sees a with
      | false => rfl
      | true => exact absurd ha (hsee a (e ▸ hq))
    · exact h.unseen a ha j r e

theorem Inv.begin {s : St} {i a : Nat} {p q : PC} (h : Inv s) (hp : s.at i p)
    (ha : s.mem a ≠ none) (ht : ∀ c, p.task c = false) (hq : ∀ c, q.task c = (a == c))
    (hsee : ∀ c, q.sees c = false) : Inv ((s.inc a).goto i q) := by
  have hT : ∀ c, ((s.inc a).goto i q).tasks c = s.tasks c + (if a = c then 1 else 0) := by
    intro c
    have := tasks_goto (s := s.inc a) (q := q) c hp
    rw [ht c, hq c] at this
    have e : (s.inc a).tasks c = s.tasks c := rfl
    by_cases e' : a = c
    · subst e'; simp only [if_true, beq_self_eq_true] at this ⊢; simp at this; omega
    · simp only [e', if_false, beq_iff_eq] at this ⊢; simp at this; omega
  refine ⟨?_, ?_, ?_, h.good⟩
  · intro c hc
    rw [hT]
    have := h.count c hc
    show upd s.cnt a (s.cnt a + 1) c = _
    unfold upd
    by_cases e : c = a
    · subst e; simp [this]
    · rw [if_neg e, if_neg (fun e' => e e'.symm)]; simpa using this
  · intro c hc
    rw [hT, if_neg (fun e => ha (by rw [e]; exact hc))]
    exact h.freed c hc
  · intro c hc j r hj
    rcases at_goto hj with ⟨-, e⟩ | ⟨-, e⟩
    · rw [e]; exact hsee c
    · exact h.unseen c hc j r e

theorem Inv.step {reuse : Bool} {s s' : St} {i : Nat} (hb : Base s) (h : Inv s) (ht : s.InTime)
    (hu : s.Unseen) (hs : Step reuse s i s') : Inv s' := by
  cases hs with
  | @opened a h1 h2 h3 h4 =>
    refine ⟨?_, ?_, ?_, h.good⟩
    · intro c hc
      show upd s.cnt a 0 c = s.tasks c
      unfold upd
      by_cases e : c = a
      · subst e; rw [if_pos rfl, h.freed c h3]
      · rw [if_neg e]
        refine h.count c ?_
        simpa [upd, e] using hc
    · intro c hc
      by_cases e : c = a
      · subst e; simp [upd] at hc
      · exact h.freed c (by simpa [upd, e] using hc)
    · intro c hc
      by_cases e : c = a
      · subst e; simp [upd] at hc
      · exact h.unseen c (by simpa [upd, e] using hc)
  | request h1 h2 h3 =>
    exact h.keep (q := .idle) h1 (fun _ => rfl) (fun _ e => (nomatch e)) rfl rfl rfl (set_self h1).symm
  | @pop r q h1 h2 =>
    exact h.keep (q := .popped r) h1 (fun _ => rfl) (fun _ e => (nomatch e)) rfl rfl rfl rfl
  | found h1 h2 h3 =>
    exact h.begin h1 (hb.mapped _ h3) (fun _ => rfl) (fun _ => rfl) (fun _ => rfl)
  | stale h1 h2 h3 => exact h.keep (q := .idle) h1 (fun _ => rfl) (fun _ e => (nomatch e)) rfl rfl rfl rfl
  | pick h1 h2 h3 =>
    exact h.begin h1 (hb.mapped _ h3) (fun _ => rfl) (fun _ => rfl) (fun _ => rfl)
  | @work a r h1 =>
    rw [touch_eq (h.alive h1 (a := a) (by simp [PC.task]))]; exact h
  | @answer a r h1 =>
    rw [touch_eq (h.alive h1 (a := a) (by simp [PC.task]))]
    exact h.keep (q := .handler a) h1 (fun _ => rfl) (fun _ e => (nomatch e)) rfl rfl rfl rfl
  | @worked a h1 =>
    rw [touch_eq (h.alive h1 (a := a) (by simp [PC.task]))]
    exact h.keep (q := .ending a) h1 (fun _ => rfl) (fun _ e => (nomatch e)) rfl rfl rfl rfl
  | @returned a h1 =>
    exact h.keep (q := .ending a) h1 (fun _ => rfl) (fun _ e => (nomatch e)) rfl rfl rfl rfl
  | @ended a h1 =>
    have ha := h.alive h1 (a := a) (by simp [PC.task])
    rw [touch_eq ha]
    have hT : ∀ c, ((s.dec a).goto i .idle).tasks c + (if a = c then 1 else 0) = s.tasks c := by
      intro c
      have := tasks_goto (s := s.dec a) (q := .idle) c h1
      have e : (s.dec a).tasks c = s.tasks c := rfl
      by_cases e' : a = c
      · subst e'; simp [PC.task] at this ⊢; omega
      · simp [PC.task, e'] at this ⊢; omega
    refine ⟨?_, ?_, ?_, h.good⟩
    · intro c hc
      have h5 := hT c
      have h6 := h.count c hc
      show upd s.cnt a (s.cnt a - 1) c = _
      unfold upd
      by_cases e : c = a
      · subst e; simp at h5 ⊢; omega
      · rw [if_neg e]; rw [if_neg (fun e' => e e'.symm)] at h5; omega
    · intro c hc
      have h5 := hT c
      have h6 := h.freed c hc
      omega
    · intro c hc j r hj
      rcases at_goto hj with ⟨-, e⟩ | ⟨-, e⟩
      · rw [e]; rfl
      · exact h.unseen c hc j r e
  | @close a h1 h2 h3 =>
    exact h.keep (q := .wait a 0 none) h1 (fun _ => rfl) (fun _ e => (nomatch e)) rfl rfl rfl rfl
  | @closeInHandler a b h1 h2 h3 =>
    exact h.keep (q := .wait a 0 (some b)) h1 (fun _ => rfl) (fun _ e => (nomatch e)) rfl rfl rfl rfl
  | @tick a t b h1 h2 h3 =>
    exact h.keep (q := .wait a (t + 1) b) h1 (fun _ => by cases b <;> rfl) (fun _ e => (nomatch e))
      rfl rfl rfl rfl
  | @destroy a t b h1 h2 =>
    have hw := hb.waiting _ _ _ _ h1
    rw [touch_eq hw.2.1]
    have hz : s.tasks a = 0 := by
      rcases h2 with h2 | h2
      · rw [← h.count a hw.2.1, h2]
      · exact tasks_zero (ht i a t b h1 h2)
    have hT : ∀ c, ({ s with mem := upd s.mem a none, locked := false }.goto i (back b)).tasks c =
        s.tasks c := by
      intro c
      have := tasks_goto (s := { s with mem := upd s.mem a none, locked := false }) (q := back b) c h1
      have e : St.tasks { s with mem := upd s.mem a none, locked := false } c = s.tasks c := rfl
      have e2 : (back b).task c = (PC.wait a t b).task c := by cases b <;> rfl
      rw [e2] at this
      omega
    refine ⟨?_, ?_, ?_, h.good⟩
    · intro c hc
      rw [hT]
      by_cases e : c = a
      · subst e; simp [St.goto, upd] at hc
      · exact h.count c (by simpa [St.goto, upd, e] using hc)
    · intro c hc
      rw [hT]
      by_cases e : c = a
      · subst e; exact hz
      · exact h.freed c (by simpa [St.goto, upd, e] using hc)
    · intro c hc j r hj
      rcases at_goto hj with ⟨-, e⟩ | ⟨-, e⟩
      · rw [e]; cases b <;> rfl
      · by_cases e' : c = a
        · subst e'; exact hu i c t b h1 j r e
        · exact h.unseen c (by simpa [St.goto, upd, e'] using hc) j r e
  | @scan l h1 h2 h3 =>
    refine h.keep (q := .seen l) h1 (fun _ => rfl) ?_ rfl rfl rfl rfl
    intro a ha
    exact hb.mapped a (h3 a (by simpa [PC.sees] using ha))
  | @visit a l h1 =>
    have ha : s.mem a ≠ none := fun e => by
      have := h.unseen a e _ _ h1
      simp [PC.sees] at this
    rw [touch_eq ha]
    refine h.keep (q := .seen l) h1 (fun _ => rfl) ?_ rfl rfl rfl rfl
    intro c hc e
    have h5 := h.unseen c e _ _ h1
    simp [PC.sees] at h5 hc
    exact h5.2 hc
  | visited h1 =>
    exact h.keep (q := .idle) h1 (fun _ => rfl) (fun _ e => (nomatch e)) rfl rfl rfl rfl

theorem CalmReach.inv {reuse : Bool} {k : Nat} {s : St} (h : CalmReach reuse k s) : Inv s := by
  induction h with
  | init => exact Inv.init k
  | step h1 h2 h3 h4 ih => exact ih.step h1.reach.base h2 h3 h4

/-! ### requests -/

/-- a request that is not answered yet -/
def St.Pend (s : St) (r : Req) : Prop := r ∈ s.queue ∨ ∃ j p, s.at j p ∧ p.req = some r

theorem Pend.goto {s s' : St} {i : Nat} {p q : PC} {r : Req} (hp : s.at i p) (h : s'.Pend r)
    (hq : q.req = some r → p.req = some r) (h1 : s'.queue = s.queue)
    (h2 : s'.pcs = s.pcs.set i q) : s.Pend r := by
  rcases h with h | ⟨j, x, hj, hx⟩
  · exact Or.inl (h1 ▸ h)
  · have : (s.goto i q).at j x := by unfold St.at St.goto at *; rw [← h2]; exact hj
    rcases at_goto this with ⟨-, e⟩ | ⟨-, e⟩
    · exact Or.inr ⟨i, p, hp, hq (e ▸ hx)⟩
    · exact Or.inr ⟨j, x, e, hx⟩

/-- No step but a new request adds one. -/
theorem Pend.step {reuse : Bool} {s s' : St} {i : Nat} {r : Req} (hs : Step reuse s i s')
    (h : s'.Pend r) : s.Pend r ∨ (s'.mem = s.mem ∧ s'.used = s.used ∧ s'.next = s.next ∧
      s'.map = s.map ∧ s.mem r.addr = some r.db ∧ s.map r.addr = true) := by
  cases hs with
  | opened h1 h2 h3 h4 => exact Or.inl h
  | @request a d h1 h2 h3 =>
    rcases h with h | h
    · rcases List.mem_append.1 h with h | h
      · exact Or.inl (Or.inl h)
      · rw [List.mem_singleton] at h
        subst h
        exact Or.inr ⟨rfl, rfl, rfl, rfl, h3, h2⟩
    · exact Or.inl (Or.inr h)
  | @pop r' q h1 h2 =>
    refine Or.inl ?_
    rcases h with h | ⟨j, x, hj, hx⟩
    · exact Or.inl (by rw [h2]; exact List.mem_cons_of_mem _ h)
    · rcases at_goto hj with ⟨-, e⟩ | ⟨-, e⟩
      · rw [e] at hx; cases hx
        exact Or.inl (by rw [h2]; exact List.mem_cons_self)
      · exact Or.inr ⟨j, x, e, hx⟩
  | found h1 h2 h3 => exact Or.inl (Pend.goto (q := .busy _ (some _)) h1 h (fun e => e) rfl rfl)
  | stale h1 h2 h3 => exact Or.inl (Pend.goto (q := .idle) h1 h (fun e => (nomatch e)) rfl rfl)
  | pick h1 h2 h3 => exact Or.inl (Pend.goto (q := .busy _ none) h1 h (fun e => (nomatch e)) rfl rfl)
  | work h1 => exact Or.inl h
  | answer h1 => exact Or.inl (Pend.goto (q := .handler _) h1 h (fun e => (nomatch e)) rfl rfl)
  | worked h1 => exact Or.inl (Pend.goto (q := .ending _) h1 h (fun e => (nomatch e)) rfl rfl)
  | returned h1 => exact Or.inl (Pend.goto (q := .ending _) h1 h (fun e => (nomatch e)) rfl rfl)
  | ended h1 => exact Or.inl (Pend.goto (q := .idle) h1 h (fun e => (nomatch e)) rfl rfl)
  | close h1 h2 h3 => exact Or.inl (Pend.goto (q := .wait _ _ _) h1 h (fun e => (nomatch e)) rfl rfl)
  | closeInHandler h1 h2 h3 => exact Or.inl (Pend.goto (q := .wait _ _ _) h1 h (fun e => (nomatch e)) rfl rfl)
  | tick h1 h2 h3 => exact Or.inl (Pend.goto (q := .wait _ _ _) h1 h (fun e => (nomatch e)) rfl rfl)
  | @destroy a t b h1 h2 =>
    exact Or.inl (Pend.goto (q := back b) h1 h (fun e => by cases b <;> (nomatch e)) rfl rfl)
  | scan h1 h2 h3 => exact Or.inl (Pend.goto (q := .seen _) h1 h (fun e => (nomatch e)) rfl rfl)
  | visit h1 => exact Or.inl (Pend.goto (q := .seen _) h1 h (fun e => (nomatch e)) rfl rfl)
  | visited h1 => exact Or.inl (Pend.goto (q := .idle) h1 h (fun e => (nomatch e)) rfl rfl)

/-- What a step does to the memory and the map. -/
theorem mem_step {reuse : Bool} {s s' : St} {i : Nat} (hs : Step reuse s i s') :
    (s'.mem = s.mem ∧ s'.next = s.next ∧ s'.used = s.used ∧
      ∀ a, s'.map a = true → s.map a = true) ∨
    (∃ a, s.mem a = none ∧ (reuse = true ∨ s.used a = false) ∧ s'.mem = upd s.mem a (some s.next) ∧
      s'.next = s.next + 1 ∧ s'.used = upd s.used a true ∧ s'.map = upd s.map a true) ∨
    (∃ a t b, s.at i (.wait a t b) ∧ s'.mem = upd s.mem a none ∧ s'.next = s.next ∧
      s'.used = s.used ∧ s'.map = s.map) := by
  have hc : ∀ a c, upd s.map a false c = true → s.map c = true := by
    intro a c h; unfold upd at h; split at h
    · cases h
    · exact h
  cases hs with
  | @opened a h1 h2 h3 h4 => exact Or.inr (Or.inl ⟨a, h3, h4, rfl, rfl, rfl, rfl⟩)
  | close h1 h2 h3 => exact Or.inl ⟨rfl, rfl, rfl, hc _⟩
  | closeInHandler h1 h2 h3 => exact Or.inl ⟨rfl, rfl, rfl, hc _⟩
  | @destroy a t b h1 h2 => exact Or.inr (Or.inr ⟨a, t, b, h1, rfl, rfl, rfl, rfl⟩)
  | _ => exact Or.inl ⟨rfl, rfl, rfl, fun _ h => h⟩

structure Names (s : St) : Prop where
  old : ∀ a d, s.mem a = some d → d < s.next
  inj : ∀ a b d, s.mem a = some d → s.mem b = some d → a = b
  pend : ∀ r, s.Pend r → r.db < s.next ∧ ∀ a, s.mem a = some r.db → a = r.addr
  gone : ∀ d ∈ s.notFound, d < s.next ∧ ∀ a, s.mem a = some d → s.map a = false
  addr : ∀ j a r, s.at j (.busy a (some r)) → r.addr = a

theorem notFound_step {reuse : Bool} {s s' : St} {i : Nat} (hs : Step reuse s i s') :
    s'.notFound = s.notFound ∨ ∃ r, s.at i (.popped r) ∧ s.map r.addr = false ∧ s'.mem = s.mem ∧
      s'.map = s.map ∧ s'.next = s.next ∧ s'.notFound = s.notFound ++ [r.db] := by
  cases hs with
  | @stale r h1 h2 h3 => exact Or.inr ⟨r, h1, h3, rfl, rfl, rfl, rfl⟩
  | _ => exact Or.inl rfl

theorem busy_step {reuse : Bool} {s s' : St} {i j a : Nat} {r : Req} (hs : Step reuse s i s')
    (h : s'.at j (.busy a (some r))) : s.at j (.busy a (some r)) ∨ r.addr = a := by
  cases hs with
  | opened h1 h2 h3 h4 => exact Or.inl h
  | request h1 h2 h3 => exact Or.inl h
  | work h1 => exact Or.inl h
  | found h1 h2 h3 =>
    rcases at_goto h with ⟨-, e⟩ | ⟨-, e⟩
    · cases e; exact Or.inr rfl
    · exact Or.inl e
  | @destroy a t b h1 h2 =>
    rcases at_goto h with ⟨-, e⟩ | ⟨-, e⟩
    · cases b <;> cases e
    · exact Or.inl e
  | _ =>
    rcases at_goto h with ⟨-, e⟩ | ⟨-, e⟩
    · cases e
    · exact Or.inl e

theorem Names.step {reuse : Bool} {s s' : St} {i : Nat} (h : Names s)
    (hs : Step reuse s i s') : Names s' := by
  have hm := mem_step hs
  -- databases of the new state
  have hmem : ∀ a d, s'.mem a = some d → s.mem a = some d ∨ (d = s.next ∧ s.mem a = none) := by
    intro a d hd
    rcases hm with ⟨e, -⟩ | ⟨c, h1, -, e, -⟩ | ⟨c, t, b, -, e, -⟩
    · rw [e] at hd; exact Or.inl hd
    · rw [e] at hd; unfold upd at hd; split at hd
      · rename_i e'; subst e'; cases hd; exact Or.inr ⟨rfl, h1⟩
      · exact Or.inl hd
    · rw [e] at hd; unfold upd at hd; split at hd
      · cases hd
      · exact Or.inl hd
  have hnew : (∃ a, s'.mem a = some s.next) → s'.next = s.next + 1 ∧
      ∀ a b, s'.mem a = some s.next → s'.mem b = some s.next → a = b := by
    rintro ⟨a, ha⟩
    rcases hm with ⟨e, -⟩ | ⟨c, h1, -, e, e2, -⟩ | ⟨c, t, b, -, e, -⟩
    · rw [e] at ha; exact absurd (h.old _ _ ha) (Nat.lt_irrefl _)
    · have g : ∀ x, s'.mem x = some s.next → x = c := by
        intro x hx
        rw [e] at hx; unfold upd at hx; split at hx
        · assumption
        · exact absurd (h.old _ _ hx) (Nat.lt_irrefl _)
      exact ⟨e2, fun x y hx hy => (g x hx).trans (g y hy).symm⟩
    · rw [e] at ha; unfold upd at ha; split at ha
      · cases ha
      · exact absurd (h.old _ _ ha) (Nat.lt_irrefl _)
  have hnext : s.next ≤ s'.next := by
    rcases hm with ⟨-, e, -⟩ | ⟨c, -, -, -, e, -⟩ | ⟨c, t, b, -, -, e, -⟩ <;> omega
  refine ⟨?_, ?_, ?_, ?_, ?_⟩
  · intro a d hd
    rcases hmem a d hd with h1 | ⟨h1, -⟩
    · exact Nat.lt_of_lt_of_le (h.old _ _ h1) hnext
    · rw [h1] at hd; rw [(hnew ⟨a, hd⟩).1, h1]; exact Nat.lt_succ_self _
  · intro a b d ha hb'
    rcases hmem a d ha with h1 | ⟨h1, -⟩
    · rcases hmem b d hb' with h2 | ⟨h2, -⟩
      · exact h.inj _ _ _ h1 h2
      · rw [h2] at h1; exact absurd (h.old _ _ h1) (Nat.lt_irrefl _)
    · rw [h1] at ha hb'; exact (hnew ⟨a, ha⟩).2 a b ha hb'
  · intro r hr
    rcases Pend.step hs hr with h1 | ⟨e1, -, e3, -, h5, -⟩
    · have h2 := h.pend r h1
      refine ⟨Nat.lt_of_lt_of_le h2.1 hnext, ?_⟩
      intro a ha
      rcases hmem a _ ha with h3 | ⟨h3, -⟩
      · exact h2.2 a h3
      · rw [h3] at h2; exact absurd h2.1 (Nat.lt_irrefl _)
    · rw [e1, e3]
      exact ⟨h.old _ _ h5, fun a ha => h.inj _ _ _ ha h5⟩
  · intro d hd
    have key : ∀ d, d < s.next → (∀ a, s.mem a = some d → s.map a = false) →
        ∀ a, s'.mem a = some d → s'.map a = false := by
      intro d hlt hz a ha
      rcases hmem a d ha with h1 | ⟨h1, -⟩
      · have h2 := hz a h1
        rcases hm with ⟨-, -, -, e⟩ | ⟨c, hc, -, -, -, -, e⟩ | ⟨c, t, b, -, -, -, -, e⟩
        · cases e' : s'.map a with
          | false => rfl
          | true => rw [e a e'] at h2; cases h2
        · rw [e]; unfold upd; split
          · rename_i e'; subst e'; rw [hc] at h1; cases h1
          · exact h2
        · rw [e]; exact h2
      · omega
    rcases notFound_step hs with e | ⟨r, h1, h2, e1, e2, e3, e⟩
    · rw [e] at hd
      exact ⟨Nat.lt_of_lt_of_le (h.gone d hd).1 hnext, key d (h.gone d hd).1 (h.gone d hd).2⟩
    · rw [e] at hd
      rcases List.mem_append.1 hd with hd | hd
      · exact ⟨Nat.lt_of_lt_of_le (h.gone d hd).1 hnext, key d (h.gone d hd).1 (h.gone d hd).2⟩
      · rw [List.mem_singleton] at hd
        subst hd
        have h3 := h.pend r (Or.inr ⟨i, _, h1, rfl⟩)
        refine ⟨by rw [e3]; exact h3.1, ?_⟩
        intro a ha
        rw [e1] at ha
        rw [h3.2 a ha, e2]; exact h2
  · intro j a r hj
    rcases busy_step hs hj with h1 | h1
    · exact h.addr j a r h1
    · exact h1

theorem Names.init (k : Nat) : Names { pcs := List.replicate k .idle } := by
  refine ⟨fun _ _ h => (nomatch h), fun _ _ _ h => (nomatch h), ?_, fun _ h => (nomatch h), ?_⟩
  · rintro r (h | ⟨j, p, h, e⟩)
    · cases h
    · rw [at_replicate h] at e; cases e
  · intro j a r h; cases at_replicate h

theorem Reach.names {reuse : Bool} {k : Nat} {s : St} (h : Reach reuse k s) : Names s := by
  induction h with
  | init => exact Names.init k
  | step _ h2 ih => exact ih.step h2

/-- Addresses are not used twice. -/
structure Fresh (s : St) : Prop where
  used : ∀ a d, s.mem a = some d → s.used a = true
  pend : ∀ r, s.Pend r → s.used r.addr = true ∧ (s.mem r.addr = some r.db ∨ s.mem r.addr = none)
  ran : ∀ x ∈ s.ran, x.2 = some x.1 ∨ x.2 = none

theorem ran_step {reuse : Bool} {s s' : St} {i : Nat} (hs : Step reuse s i s') :
    s'.ran = s.ran ∨ ∃ a r, s.at i (.busy a (some r)) ∧ s'.ran = s.ran ++ [(r.db, s.mem a)] := by
  cases hs with
  | @answer a r h1 => exact Or.inr ⟨a, r, h1, rfl⟩
  | _ => exact Or.inl rfl

theorem Fresh.step {s s' : St} {i : Nat} (hn : Names s) (h : Fresh s) (hs : Step false s i s') :
    Fresh s' := by
  have hm := mem_step hs
  refine ⟨?_, ?_, ?_⟩
  · intro a d hd
    rcases hm with ⟨e, -, e2, -⟩ | ⟨c, -, -, e, -, e2, -⟩ | ⟨c, t, b, -, e, -, e2, -⟩
    · rw [e] at hd; rw [e2]; exact h.used a d hd
    · rw [e] at hd; rw [e2]; unfold upd at hd ⊢
      split
      · rfl
      · rename_i hne; rw [if_neg hne] at hd; exact h.used a d hd
    · rw [e] at hd; rw [e2]; unfold upd at hd
      split at hd
      · cases hd
      · exact h.used a d hd
  · intro r hr
    rcases Pend.step hs hr with h1 | ⟨e1, e2, -, -, h5, -⟩
    · have h2 := h.pend r h1
      rcases hm with ⟨e, -, e2, -⟩ | ⟨c, hc, hf, e, -, e2, -⟩ | ⟨c, t, b, -, e, -, e2, -⟩
      · rw [e, e2]; exact h2
      · have hf : s.used c = false := by
          rcases hf with hf | hf
          · cases hf
          · exact hf
        have hne : r.addr ≠ c := fun e' => by rw [e', hf] at h2; cases h2.1
        rw [e, e2]; unfold upd; rw [if_neg hne, if_neg hne]; exact h2
      · rw [e, e2]; unfold upd
        refine ⟨h2.1, ?_⟩
        split
        · exact Or.inr rfl
        · exact h2.2
    · rw [e1, e2]; exact ⟨h.used _ _ h5, Or.inl h5⟩
  · intro x hx
    rcases ran_step hs with e | ⟨a, r, h1, e⟩
    · rw [e] at hx; exact h.ran x hx
    · rw [e] at hx
      rcases List.mem_append.1 hx with hx | hx
      · exact h.ran x hx
      · rw [List.mem_singleton] at hx
        subst hx
        have h2 := (h.pend r (Or.inr ⟨i, _, h1, rfl⟩)).2
        rw [hn.addr _ _ _ h1] at h2
        exact h2

theorem Fresh.init (k : Nat) : Fresh { pcs := List.replicate k .idle } := by
  refine ⟨fun _ _ h => (nomatch h), ?_, fun _ h => (nomatch h)⟩
  rintro r (h | ⟨j, p, h, e⟩)
  · cases h
  · rw [at_replicate h] at e; cases e

theorem Reach.fresh {k : Nat} {s : St} (h : Reach false k s) : Fresh s := by
  induction h with
  | init => exact Fresh.init k
  | step h1 h2 ih => exact ih.step h1.names h2

/-- A database that is flushed for a request exists. -/
theorem CalmReach.ran {reuse : Bool} {k : Nat} {s : St} (h : CalmReach reuse k s) :
    ∀ x ∈ s.ran, x.2 ≠ none := by
  induction h with
  | init => exact fun _ h => (nomatch h)
  | step h1 h2 h3 h4 ih =>
    intro x hx
    rcases ran_step h4 with e | ⟨a, r, h5, e⟩
    · rw [e] at hx; exact ih x hx
    · rw [e] at hx
      rcases List.mem_append.1 hx with hx | hx
      · exact ih x hx
      · rw [List.mem_singleton] at hx
        subst hx
        exact h1.inv.alive h5 (by simp [PC.task])

/-- Every request is in the queue, or taken, or answered. -/
def St.Balanced (s : St) : Prop :=
  ∀ d, s.asked.count d = (s.queue.map Req.db).count d + s.pcs.countP (PC.holds d) +
    (s.ran.map Prod.fst).count d + s.notFound.count d

theorem holds_goto {s : St} {i : Nat} {p q : PC} (d : Nat) (h : s.at i p) :
    (s.goto i q).pcs.countP (PC.holds d) + (if p.holds d then 1 else 0) =
      s.pcs.countP (PC.holds d) + (if q.holds d then 1 else 0) :=
  countP_set' (PC.holds d) h

theorem Balanced.keep {s s' : St} {i : Nat} {p q : PC} (h : s.Balanced) (hp : s.at i p)
    (hq : q.req.map Req.db = p.req.map Req.db) (h1 : s'.asked = s.asked) (h2 : s'.queue = s.queue)
    (h3 : s'.ran = s.ran) (h4 : s'.notFound = s.notFound) (h5 : s'.pcs = s.pcs.set i q) :
    s'.Balanced := by
  intro d
  have e := holds_goto (q := q) d hp
  have : q.holds d = p.holds d := by unfold PC.holds; rw [hq]
  rw [this] at e
  have e2 : s'.pcs.countP (PC.holds d) = (s.goto i q).pcs.countP (PC.holds d) := by
    unfold St.goto; rw [h5]
  have := h d
  rw [h1, h2, h3, h4]
  omega

theorem Balanced.step {reuse : Bool} {s s' : St} {i : Nat} (h : s.Balanced)
    (hs : Step reuse s i s') : s'.Balanced := by
  cases hs with
  | opened h1 h2 h3 h4 => exact h
  | request h1 h2 h3 =>
    intro d
    have := h d
    simp only [List.count_append, List.map_append, List.map_cons, List.map_nil]
    omega
  | @pop r q h1 h2 =>
    intro d
    have e := holds_goto (s := { s with queue := q }) (q := .popped r) d h1
    have := h d
    rw [h2] at this
    simp only [List.map_cons, List.count_cons] at this
    simp [PC.holds, PC.req] at e
    show s.asked.count d = (q.map Req.db).count d + _ + (s.ran.map Prod.fst).count d +
      s.notFound.count d
    rw [e]
    simp only [beq_iff_eq] at this
    omega
  | found h1 h2 h3 => exact Balanced.keep h h1 (q := .busy _ (some _)) rfl rfl rfl rfl rfl rfl
  | @stale r h1 h2 h3 =>
    intro d
    have e := holds_goto (s := { s with notFound := s.notFound ++ [r.db] }) (q := .idle) d h1
    have := h d
    simp [PC.holds, PC.req] at e
    show s.asked.count d = (s.queue.map Req.db).count d + _ + (s.ran.map Prod.fst).count d +
      (s.notFound ++ [r.db]).count d
    rw [List.count_append, List.count_singleton]
    simp only [beq_iff_eq]
    omega
  | pick h1 h2 h3 => exact Balanced.keep h h1 (q := .busy _ none) rfl rfl rfl rfl rfl rfl
  | work h1 => exact h
  | @answer a r h1 =>
    intro d
    have e := countP_set' (PC.holds d) (b := .handler a) h1
    have := h d
    simp [PC.holds, PC.req] at e
    show s.asked.count d = (s.queue.map Req.db).count d + _ +
      ((s.ran ++ [(r.db, s.mem a)]).map Prod.fst).count d + s.notFound.count d
    rw [List.map_append, List.count_append, List.map_singleton, List.count_singleton]
    simp only [beq_iff_eq]
    have e3 : ({ s.touch a with ran := s.ran ++ [(r.db, s.mem a)] }.goto i (.handler a)).pcs =
      s.pcs.set i (.handler a) := rfl
    rw [e3]
    omega
  | worked h1 => exact Balanced.keep h h1 (q := .ending _) rfl rfl rfl rfl rfl rfl
  | returned h1 => exact Balanced.keep h h1 (q := .ending _) rfl rfl rfl rfl rfl rfl
  | ended h1 => exact Balanced.keep h h1 (q := .idle) rfl rfl rfl rfl rfl rfl
  | close h1 h2 h3 => exact Balanced.keep h h1 (q := .wait _ 0 none) rfl rfl rfl rfl rfl rfl
  | closeInHandler h1 h2 h3 => exact Balanced.keep h h1 (q := .wait _ 0 (some _)) rfl rfl rfl rfl rfl rfl
  | @tick a t b h1 h2 h3 => exact Balanced.keep h h1 (q := .wait a (t + 1) b) rfl rfl rfl rfl rfl rfl
  | @destroy a t b h1 h2 => exact Balanced.keep h h1 (q := back b) (by cases b <;> rfl) rfl rfl rfl rfl rfl
  | scan h1 h2 h3 => exact Balanced.keep h h1 (q := .seen _) rfl rfl rfl rfl rfl rfl
  | @visit a l h1 => exact Balanced.keep h h1 (q := .seen l) rfl rfl rfl rfl rfl rfl
  | visited h1 => exact Balanced.keep h h1 (q := .idle) rfl rfl rfl rfl rfl rfl

theorem Reach.balanced {reuse : Bool} {k : Nat} {s : St} (h : Reach reuse k s) : s.Balanced := by
  induction h with
  | init =>
    intro d
    have : (List.replicate k PC.idle).countP (PC.holds d) = 0 := by
      rw [List.countP_eq_zero]
      intro p hp
      rw [List.eq_of_mem_replicate hp]; simp [PC.holds, PC.req]
    simp [this]
  | step h1 h2 ih => exact Balanced.step ih h2

end Jungle.Bg
