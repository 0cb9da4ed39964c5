/-
  Model of the hand-over of requests to a background flusher: `EventAwaiter`
  (src/event_awaiter.h:24-97), the worker loop (src/worker_mgr.cc:46-83), the queue part of
  `Flusher::work` (src/flusher.cc:144-147, 283-296) and `DB::flushLogsAsync`
  (src/jungle.cc:519-553).  One awaited worker, any number of requesting threads, any number of
  other workers taking from the same queue, every interleaving of the atomic steps.
-/
import Mathlib.Order.Nat

set_option linter.unusedTactic false
set_option linter.unreachableTactic false

namespace Jungle.Awaiter

/-- `EventAwaiter::AS` (src/event_awaiter.h:26-31) -/
inductive AS | idle | ready | waiting | done
  deriving DecidableEq, Repr

/-- Where the worker is. -/
inductive W
  /-- top of the loop (src/worker_mgr.cc:57-58) -/
  | top
  /-- `wait_us`, first compare-and-swap (event_awaiter.h:52) -/
  | preCas
  /-- the state is `ready`, the lock comes next (54) -/
  | preLock
  /-- lock held, second compare-and-swap next (56) -/
  | locked
  /-- the state is `waiting`, lock held, `cv.wait` next (57-61) -/
  | willWait
  /-- inside `cv.wait`, lock released -/
  | sleep
  /-- woken, needs the lock -/
  | awake
  /-- lock held again, `status.store(done)` next (62) -/
  | storeDone
  /-- `ea.reset()` next (src/worker_mgr.cc:60) -/
  | reset
  /-- IDLE → WORKING next (72) -/
  | casWork
  /-- `doNotSleepNextTime = false`, `pop` next (73, src/flusher.cc:146) -/
  | pop
  /-- the queue size is looked at next (src/flusher.cc:292-296) -/
  | sizeCheck
  /-- WORKING → IDLE next (src/worker_mgr.cc:76-78) -/
  | finish
  deriving DecidableEq, Repr

/-- Where a requesting thread is. -/
inductive N
  | out
  /-- the request is queued; the call of `invoke` (or the timer that makes it) comes next -/
  | timer
  /-- `invoke`, first compare-and-swap next (event_awaiter.h:74) -/
  | i0
  /-- lock next (79) -/
  | i1
  /-- lock held, second compare-and-swap next (81) -/
  | i2
  /-- lock held, `notify_all` next (87) -/
  | i3
  deriving DecidableEq, Repr

structure St where
  status : AS := .idle
  /-- `cvLock` -/
  lock : Bool := false
  w : W := .top
  /-- `doNotSleepNextTime` -/
  dns : Bool := false
  /-- the worker's `status` is WORKING (IDLE otherwise; STOP and TERMINATING are not modelled) -/
  working : Bool := false
  /-- the flusher queue: does the request carry a delay? -/
  queue : List Bool := []
  /-- `delayed_task` -/
  lastDelayed : Bool := false
  ns : List N
  deriving DecidableEq, Repr

def St.at (s : St) (i : Nat) (p : N) : Prop := s.ns[i]? = some p

instance (s : St) (i : Nat) (p : N) : Decidable (s.at i p) := inferInstanceAs (Decidable (_ = _))

/-- One atomic step.  `delays`: requests with `execDelayUs` occur.  `spurious`: the
    `compare_exchange_weak` calls of the worker loop may fail without reason. -/
inductive Step (delays spurious : Bool) : St → St → Prop
  /-- `flusherQueue()->push` of a new request (src/jungle.cc:519); merging into a queued one
      leaves the queue as long as it is and is the step `merge` -/
  | push {s i} (d : Bool) : s.at i .out → (d = true → delays = true) →
      Step delays spurious s { s with
        queue := s.queue ++ [d]
        ns := s.ns.set i (if d then .timer else .i0) }
  | merge {s i} : s.at i .out → s.queue ≠ [] →
      Step delays spurious s { s with ns := s.ns.set i .i0 }
  /-- the timer of a delayed request fires (src/jungle.cc:537-543) -/
  | fire {s i} : s.at i .timer → Step delays spurious s { s with ns := s.ns.set i .i0 }
  | inv0ok {s i} : s.at i .i0 → s.status = .idle →
      Step delays spurious s { s with status := .done, ns := s.ns.set i .out }
  | inv0no {s i} : s.at i .i0 → s.status ≠ .idle →
      Step delays spurious s { s with ns := s.ns.set i .i1 }
  | inv1 {s i} : s.at i .i1 → s.lock = false →
      Step delays spurious s { s with lock := true, ns := s.ns.set i .i2 }
  | inv2ok {s i} : s.at i .i2 → s.status = .ready →
      Step delays spurious s { s with status := .done, lock := false, ns := s.ns.set i .out }
  | inv2no {s i} : s.at i .i2 → s.status ≠ .ready →
      Step delays spurious s { s with ns := s.ns.set i .i3 }
  | inv3 {s i} : s.at i .i3 →
      Step delays spurious s { s with
        lock := false
        w := if s.w = .sleep then .awake else s.w
        ns := s.ns.set i .out }
  /-- another worker takes a request -/
  | otherPop {s} : Step delays spurious s { s with queue := s.queue.tail }
  | top {s} : s.w = .top →
      Step delays spurious s { s with w := if s.working = false ∧ s.dns = false then .preCas else .casWork }
  | cas1ok {s} : s.w = .preCas → s.status = .idle →
      Step delays spurious s { s with status := .ready, w := .preLock }
  | cas1no {s} : s.w = .preCas → s.status ≠ .idle → Step delays spurious s { s with w := .reset }
  | lock {s} : s.w = .preLock → s.lock = false →
      Step delays spurious s { s with lock := true, w := .locked }
  | cas2ok {s} : s.w = .locked → s.status = .ready →
      Step delays spurious s { s with status := .waiting, w := .willWait }
  | cas2no {s} : s.w = .locked → s.status ≠ .ready →
      Step delays spurious s { s with lock := false, w := .reset }
  | wait {s} : s.w = .willWait → Step delays spurious s { s with lock := false, w := .sleep }
  /-- `sleepDurationMs` elapsed, or a spurious wake-up -/
  | timeout {s} : s.w = .sleep → Step delays spurious s { s with w := .awake }
  | relock {s} : s.w = .awake → s.lock = false →
      Step delays spurious s { s with lock := true, w := .storeDone }
  | storeDone {s} : s.w = .storeDone →
      Step delays spurious s { s with status := .done, lock := false, w := .reset }
  | reset {s} : s.w = .reset → Step delays spurious s { s with status := .idle, w := .casWork }
  | casWork {s} : s.w = .casWork → s.working = false →
      Step delays spurious s { s with working := true, w := .pop }
  | casWorkNo {s} : s.w = .casWork → (s.working = true ∨ spurious = true) →
      Step delays spurious s { s with w := .top }
  | pop {s} : s.w = .pop →
      Step delays spurious s { s with
        dns := false
        queue := s.queue.tail
        lastDelayed := s.queue.head?.getD false
        w := .sizeCheck }
  | sizeCheck {s} : s.w = .sizeCheck →
      Step delays spurious s { s with
        dns := if s.queue ≠ [] ∧ s.lastDelayed = false then true else s.dns
        w := .finish }
  | finish {s} : s.w = .finish → Step delays spurious s { s with working := false, w := .top }
  | finishNo {s} : s.w = .finish → spurious = true → Step delays spurious s { s with w := .top }

/-- Executions with `n` requesting threads from an idle worker and an empty queue. -/
inductive Reach (delays spurious : Bool) (n : Nat) : St → Prop
  | init : Reach delays spurious n { ns := List.replicate n .out }
  | step {s s'} : Reach delays spurious n s → Step delays spurious s s' → Reach delays spurious n s'

def is (p : N) : N → Bool := fun q => decide (q = p)

def inLock : N → Bool
  | .i2 | .i3 => true
  | _ => false

def wLock : W → Nat
  | .locked | .willWait | .storeDone => 1
  | _ => 0

/-- what the state of the awaiter can be, by the place of the worker -/
def okStatus : W → AS → Prop
  | .preLock, a | .locked, a => a = .ready ∨ a = .done
  | .willWait, a | .sleep, a | .awake, a | .storeDone, a => a = .waiting
  | .reset, a => a = .done
  | _, a => a = .idle ∨ a = .done

/-- why a queued request will be noticed; the numbers count the requesting threads in `i0` … `i3` -/
def why : W → AS → Bool → Nat → Nat → Nat → Nat → Prop
  | .top, a, dns, n0, _, _, _ | .finish, a, dns, n0, _, _, _ => dns = true ∨ a = .done ∨ 0 < n0
  | .preCas, a, _, n0, _, _, _ => a = .done ∨ 0 < n0
  | .preLock, a, _, n0, n1, n2, _ => a = .done ∨ 0 < n0 + n1 + n2
  | .locked, a, _, n0, n1, _, _ => a = .done ∨ 0 < n0 + n1
  | .willWait, _, _, n0, n1, _, _ => 0 < n0 + n1
  | .sleep, _, _, n0, n1, n2, n3 => 0 < n0 + n1 + n2 + n3
  | _, _, _, _, _, _, _ => True

def workingAt : W → Bool
  | .pop | .sizeCheck | .finish => true
  | _ => false

structure Inv (s : St) : Prop where
  lock : s.ns.countP inLock + wLock s.w = if s.lock then 1 else 0
  st : okStatus s.w s.status
  why : s.queue ≠ [] → why s.w s.status s.dns (s.ns.countP (is .i0)) (s.ns.countP (is .i1))
    (s.ns.countP (is .i2)) (s.ns.countP (is .i3))
  wk : s.working = workingAt s.w
  nd : ∀ d ∈ s.queue, d = false
  ld : s.lastDelayed = false
  tm : s.ns.countP (is .timer) = 0

theorem countP_set' (p : N → Bool) {l : List N} {i : Nat} {a b : N} (h : l[i]? = some a) :
    (l.set i b).countP p + (if p a then 1 else 0) = l.countP p + (if p b then 1 else 0) := by
  obtain ⟨hi, e⟩ := List.getElem?_eq_some_iff.1 h
  rw [List.countP_set hi, e]
  have : (if p a = true then 1 else 0) ≤ l.countP p := by
    split
    · next hp => exact List.countP_pos_iff.2 ⟨a, List.mem_of_getElem? h, hp⟩
    · omega
  omega

theorem inLock_eq (l : List N) : l.countP inLock = l.countP (is .i2) + l.countP (is .i3) := by
  induction l with
  | nil => rfl
  | cons a l ih =>
    rw [List.countP_cons, List.countP_cons, List.countP_cons, ih]
    cases a <;> simp [inLock, is] <;> omega

theorem Inv.init (n : Nat) : Inv { ns := List.replicate n .out } := by
  constructor <;> simp [List.countP_replicate, inLock, wLock, okStatus, is, workingAt]

theorem Inv.step {s s'} (h : Inv s) (st : Step false false s s') : Inv s' := by
  obtain ⟨h1, h2, h3, h4, h5, h6, h7⟩ := h
  have key : ∀ {i : Nat} {a : N} (b : N), s.at i a →
      (s.ns.set i b).countP inLock + (if inLock a then 1 else 0) = s.ns.countP inLock + (if inLock b then 1 else 0) ∧
      (s.ns.set i b).countP (is .i0) + (if is .i0 a then 1 else 0) = s.ns.countP (is .i0) + (if is .i0 b then 1 else 0) ∧
      (s.ns.set i b).countP (is .i1) + (if is .i1 a then 1 else 0) = s.ns.countP (is .i1) + (if is .i1 b then 1 else 0) ∧
      (s.ns.set i b).countP (is .i2) + (if is .i2 a then 1 else 0) = s.ns.countP (is .i2) + (if is .i2 b then 1 else 0) ∧
      (s.ns.set i b).countP (is .i3) + (if is .i3 a then 1 else 0) = s.ns.countP (is .i3) + (if is .i3 b then 1 else 0) ∧
      (s.ns.set i b).countP (is .timer) + (if is .timer a then 1 else 0) = s.ns.countP (is .timer) + (if is .timer b then 1 else 0) :=
    fun b ha => ⟨countP_set' _ ha, countP_set' _ ha, countP_set' _ ha, countP_set' _ ha,
      countP_set' _ ha, countP_set' _ ha⟩
  have hl := inLock_eq s.ns
  cases st with
  | push d ha hd =>
    rename_i i
    have hd' : d = false := by cases d; rfl; exact absurd (hd rfl) (by simp)
    subst hd'
    have k := key .i0 ha
    simp only [inLock, is, if_true, Bool.false_eq_true, if_false, reduceCtorEq, decide_false, decide_true] at k
    simp only [Bool.false_eq_true, if_false]
    refine ⟨by simp only []; omega, h2, ?_, h4, ?_, h6, by simp only []; omega⟩
    · intro _; simp only []
      have h0 : 0 < (s.ns.set i N.i0).countP (is .i0) := by omega
      revert h0; generalize (s.ns.set i N.i0).countP (is .i0) = n0
      intro h0
      cases hw : s.w <;> simp only [Awaiter.why] <;> omega
    · intro d hd; rcases List.mem_append.1 hd with hd | hd
      · exact h5 d hd
      · simpa using hd
  | merge ha hq =>
    rename_i i
    have k := key .i0 ha
    simp only [inLock, is, if_true, Bool.false_eq_true, if_false, reduceCtorEq, decide_false, decide_true] at k
    refine ⟨by simp only []; omega, h2, ?_, h4, h5, h6, by simp only []; omega⟩
    intro _; simp only []
    have h0 : 0 < (s.ns.set i N.i0).countP (is .i0) := by omega
    revert h0; generalize (s.ns.set i N.i0).countP (is .i0) = n0
    intro h0
    cases hw : s.w <;> simp only [Awaiter.why] <;> omega
  | fire ha =>
    exfalso
    have : 0 < s.ns.countP (is .timer) := List.countP_pos_iff.2 ⟨_, List.mem_of_getElem? ha, by simp [is]⟩
    omega
  | inv0ok ha hs =>
    have k := key .out ha
    simp only [inLock, is, if_true, Bool.false_eq_true, if_false, reduceCtorEq, decide_false, decide_true] at k
    refine ⟨by simp only []; omega, ?_, ?_, h4, h5, h6, by simp only []; omega⟩
    · rw [hs] at h2; cases hw : s.w <;> simp [hw, okStatus] at h2 ⊢
    · intro _; rw [hs] at h2; simp only []
      cases hw : s.w <;> simp [hw, okStatus, Awaiter.why] at h2 ⊢
  | inv0no ha hs =>
    have k := key .i1 ha
    simp only [inLock, is, if_true, Bool.false_eq_true, if_false, reduceCtorEq, decide_false, decide_true] at k
    refine ⟨by simp only []; omega, h2, ?_, h4, h5, h6, by simp only []; omega⟩
    intro hq; have := h3 hq; revert this h2; simp only []
    cases hw : s.w <;> simp only [okStatus, Awaiter.why] <;> intro h2 hy <;>
      first
        | trivial
        | omega
        | (rcases hy with hy | hy; exact Or.inl hy; right; omega)
        | (rcases h2 with h2 | h2 <;> first | exact absurd h2 hs | (simp [h2]; done))
  | inv1 ha hlk =>
    have k := key .i2 ha
    simp only [inLock, is, if_true, Bool.false_eq_true, if_false, reduceCtorEq, decide_false, decide_true] at k
    rw [hlk] at h1; simp only [Bool.false_eq_true, if_false] at h1
    refine ⟨by simp only [if_true]; omega, h2, ?_, h4, h5, h6, by simp only []; omega⟩
    intro hq; have := h3 hq; revert this h1; simp only []
    cases hw : s.w <;> simp only [wLock, Awaiter.why] <;> intro h1 hy <;>
      first
        | trivial
        | omega
        | (rcases hy with hy | hy | hy; exact Or.inl hy; exact Or.inr (Or.inl hy); right; right; omega)
        | (rcases hy with hy | hy; exact Or.inl hy; right; omega)
  | inv2ok ha hs =>
    have k := key .out ha
    simp only [inLock, is, if_true, Bool.false_eq_true, if_false, reduceCtorEq, decide_false, decide_true] at k
    refine ⟨?_, ?_, ?_, h4, h5, h6, by simp only []; omega⟩
    · simp only [Bool.false_eq_true, if_false]; split at h1 <;> omega
    · rw [hs] at h2; cases hw : s.w <;> simp [hw, okStatus] at h2 ⊢
    · intro _; rw [hs] at h2; simp only []
      cases hw : s.w <;> simp [hw, okStatus, Awaiter.why] at h2 ⊢
  | inv2no ha hs =>
    have k := key .i3 ha
    simp only [inLock, is, if_true, Bool.false_eq_true, if_false, reduceCtorEq, decide_false, decide_true] at k
    have hlk : s.lock = true := by by_contra hc; rw [if_neg hc] at h1; omega
    rw [hlk] at h1; simp only [if_true] at h1
    refine ⟨by simp only [hlk, if_true]; omega, h2, ?_, h4, h5, h6, by simp only []; omega⟩
    intro hq; have := h3 hq; revert this h1 h2; simp only []
    cases hw : s.w <;> simp only [okStatus, wLock, Awaiter.why] <;> intro h1 h2 hy <;>
      first
        | trivial
        | omega
        | (rcases h2 with h2 | h2 <;> first | exact absurd h2 hs | (simp [h2]; done))
        | (rcases h1 with h1 | h1 <;> first | exact absurd h1 hs | (simp [h1]; done))
        | (rcases hy with hy | hy | hy; exact Or.inl hy; exact Or.inr (Or.inl hy); right; right; omega)
        | (rcases hy with hy | hy; exact Or.inl hy; right; omega)
  | inv3 ha =>
    have k := key .out ha
    simp only [inLock, is, if_true, Bool.false_eq_true, if_false, reduceCtorEq, decide_false, decide_true] at k
    have hlk : s.lock = true := by by_contra hc; rw [if_neg hc] at h1; omega
    rw [hlk] at h1; simp only [if_true] at h1
    refine ⟨?_, ?_, ?_, ?_, h5, h6, by simp only []; omega⟩
    · simp only [Bool.false_eq_true, if_false]; split
      · next hw => rw [hw] at h1; simp only [wLock] at h1 ⊢; omega
      · omega
    · simp only []; split
      · next hw => rw [hw] at h2; exact h2
      · exact h2
    · intro hq; have := h3 hq; revert this h1; simp only []
      cases hw : s.w <;> simp only [reduceCtorEq, if_false, if_true, wLock, Awaiter.why] <;> intro h1 hy <;>
      first
        | trivial
        | omega
        | (rcases hy with hy | hy | hy; exact Or.inl hy; exact Or.inr (Or.inl hy); right; right; omega)
        | (rcases hy with hy | hy; exact Or.inl hy; right; omega)
    · simp only []; split
      · next hw => rw [hw] at h4; exact h4
      · exact h4
  | otherPop =>
    refine ⟨h1, h2, ?_, h4, fun d hd => h5 d (List.mem_of_mem_tail hd), h6, h7⟩
    intro hq; exact h3 (fun e => hq (by simp [e]))
  | top hw =>
    rw [hw] at h1 h2 h3 h4
    simp only [workingAt] at h4
    refine ⟨?_, ?_, ?_, ?_, h5, h6, h7⟩
    · simp only []; split <;> exact h1
    · simp only []; split <;> exact h2
    · intro hq; have := h3 hq; simp only []
      split
      · next hc => rcases this with hy | hy | hy
                   · rw [hc.2] at hy; cases hy
                   · exact Or.inl hy
                   · exact Or.inr hy
      · trivial
    · simp only []; split <;> exact h4
  | cas1ok hw hs =>
    rw [hw] at h1 h2 h3 h4
    refine ⟨h1, Or.inl rfl, ?_, h4, h5, h6, h7⟩
    intro hq; rcases h3 hq with hy | hy
    · rw [hs] at hy; cases hy
    · right; simp only []; omega
  | cas1no hw hs =>
    rw [hw] at h1 h2 h3 h4
    refine ⟨h1, ?_, fun _ => trivial, h4, h5, h6, h7⟩
    rcases h2 with h2 | h2
    · exact absurd h2 hs
    · exact h2
  | lock hw hlk =>
    rw [hw] at h1 h2 h3 h4
    rw [hlk] at h1; simp only [wLock, Bool.false_eq_true, if_false] at h1
    refine ⟨by simp only [wLock, if_true]; omega, h2, ?_, h4, h5, h6, h7⟩
    intro hq; rcases h3 hq with hy | hy
    · exact Or.inl hy
    · right; simp only []; omega
  | cas2ok hw hs =>
    rw [hw] at h1 h2 h3 h4
    refine ⟨h1, rfl, ?_, h4, h5, h6, h7⟩
    intro hq; rcases h3 hq with hy | hy
    · rw [hs] at hy; cases hy
    · exact hy
  | cas2no hw hs =>
    rw [hw] at h1 h2 h3 h4
    refine ⟨?_, ?_, fun _ => trivial, h4, h5, h6, h7⟩
    · simp only [wLock, Bool.false_eq_true, if_false] at h1 ⊢; split at h1 <;> omega
    · rcases h2 with h2 | h2
      · exact absurd h2 hs
      · exact h2
  | wait hw =>
    rw [hw] at h1 h2 h3 h4
    refine ⟨?_, h2, ?_, h4, h5, h6, h7⟩
    · simp only [wLock, Bool.false_eq_true, if_false] at h1 ⊢; split at h1 <;> omega
    · intro hq; have := h3 hq; simp only [Awaiter.why] at this ⊢; omega
  | timeout hw =>
    rw [hw] at h1 h2 h3 h4
    exact ⟨h1, h2, fun _ => trivial, h4, h5, h6, h7⟩
  | relock hw hlk =>
    rw [hw] at h1 h2 h3 h4
    rw [hlk] at h1; simp only [wLock, Bool.false_eq_true, if_false] at h1
    exact ⟨by simp only [wLock, if_true]; omega, h2, fun _ => trivial, h4, h5, h6, h7⟩
  | storeDone hw =>
    rw [hw] at h1 h2 h3 h4
    refine ⟨?_, rfl, fun _ => trivial, h4, h5, h6, h7⟩
    simp only [wLock, Bool.false_eq_true, if_false] at h1 ⊢; split at h1 <;> omega
  | reset hw =>
    rw [hw] at h1 h2 h3 h4
    exact ⟨h1, Or.inl rfl, fun _ => trivial, h4, h5, h6, h7⟩
  | casWork hw hk =>
    rw [hw] at h1 h2 h3 h4
    exact ⟨h1, h2, fun _ => trivial, rfl, h5, h6, h7⟩
  | casWorkNo hw hk =>
    rw [hw] at h4; rw [h4] at hk; simp [workingAt] at hk
  | pop hw =>
    rw [hw] at h1 h2 h3 h4
    refine ⟨h1, h2, fun _ => trivial, h4, fun d hd => h5 d (List.mem_of_mem_tail hd), ?_, h7⟩
    simp only []
    cases hq : s.queue with
    | nil => rfl
    | cons d q => simpa using h5 d (by simp [hq])
  | sizeCheck hw =>
    rw [hw] at h1 h2 h3 h4
    refine ⟨h1, h2, ?_, h4, h5, h6, h7⟩
    intro hq; left; simp only [] at hq ⊢; rw [if_pos ⟨hq, h6⟩]
  | finish hw =>
    rw [hw] at h1 h2 h3 h4
    exact ⟨h1, h2, h3, rfl, h5, h6, h7⟩
  | finishNo hw hs => cases hs

theorem Reach.inv {n s} (h : Reach false false n s) : Inv s := by
  induction h with
  | init => exact Inv.init n
  | step _ st ih => exact ih.step st

end Jungle.Awaiter
