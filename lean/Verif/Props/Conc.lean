/-
  Properties of the concurrent parts: operation semaphore (C31), table locks (C32), life time of
  log files (C30), eviction (C41), file numbers (C45), wake-up of workers (C43), flusher queue
  (C44).
-/
import Verif.Conc.Sema
import Verif.Conc.Locks
import Verif.Conc.RefCount
import Verif.Conc.Evict
import Verif.Conc.Numbers
import Verif.Conc.Awaiter
import Verif.Conc.FlusherQ

namespace Jungle

/-! ### C31: background operations exclude each other -/

/-- Two threads are never in the protected operation at the same time. -/
theorem C31_at_most_one {m : Bool} {s : Sema.St} (h : Sema.Reach m s) {i j : Nat}
    (hi : s.pc i = .running) (hj : s.pc j = .running) : i = j :=
  h.inv.one i j (by rw [hi]; rfl) (by rw [hj]; rfl)

/-- While a thread is in the operation no other one starts it. -/
theorem C31_no_start_while_running {m : Bool} {s s' : Sema.St} (h : Sema.Reach m s) {i j : Nat}
    (hj : s.pc j = .running) : ¬ Sema.Step s i .started s' := by
  intro st
  have h' := (Sema.Reach.step h st).inv
  cases st with
  | casOk hp hg => have := h.inv.grab.2 ⟨j, hj⟩; rw [hg] at this; cases this
  | grab hp =>
    have := h.inv.one i j (by rw [hp]; rfl) (by rw [hj]; rfl)
    subst this; rw [hp] at hj; cases hj

/-- An attempt that returns OPERATION_IN_PROGRESS leaves the semaphore and every other thread as
    they were, and the caller outside the operation. -/
theorem C31_refused_changes_nothing {s s' : Sema.St} {i : Nat} (st : Sema.Step s i .inProgress s') :
    s'.enabled = s.enabled ∧ s'.grabbed = s.grabbed ∧ s'.lock = s.lock ∧ s'.pc i = .idle ∧
      ∀ j, j ≠ i → s'.pc j = s.pc j := by
  cases st with
  | readDisabled _ hp => exact ⟨rfl, rfl, rfl, hp, fun _ _ => rfl⟩
  | casFail => exact ⟨rfl, rfl, rfl, by simp [Sema.St.setPC], fun j hj => by simp [Sema.St.setPC, hj]⟩

/-- The permission is always given back: when no thread is in the operation the semaphore is
    free, and a thread that tries (before the DB is closed) can get in. -/
theorem C31_given_back {m : Bool} {s : Sema.St} (h : Sema.Reach m s)
    (hout : ∀ j, s.pc j = .idle ∨ s.pc j = .checked) :
    s.grabbed = false ∧ s.lock = none ∧
      ∀ i, s.pc i = .idle → s.enabled = true → ∃ s1 s2, Sema.Step s i .none s1 ∧
        Sema.Step s1 i .started s2 ∧ s2.pc i = .running := by
  have hin : ∀ j, Sema.inside (s.pc j) = false := by
    intro j; rcases hout j with e | e <;> rw [e] <;> rfl
  have hg : s.grabbed = false := by
    by_contra hc
    obtain ⟨j, hj⟩ := h.inv.grab.1 (by simpa using hc)
    have := hin j; rw [hj] at this; cases this
  have hl : s.lock = none := h.inv.free.2 (Or.inr hin)
  refine ⟨hg, hl, fun i hi he => ?_⟩
  cases hm : s.lockMode
  · exact ⟨_, _, .readEnabled hm hi he, .casOk (by simp [Sema.St.setPC]) hg, by simp [Sema.St.setPC]⟩
  · exact ⟨_, _, .lock hm hi hl, .grab (by simp [Sema.St.setPC]), by simp [Sema.St.setPC]⟩

/-- Not guaranteed: an operation may start after `close` has disabled the semaphore and gone
    away, because `enabled` was read before (src/log_mgr.h:117-118). -/
theorem C31_start_after_close_violation : ∃ s s' : Sema.St, Sema.Reach false s ∧
    s.enabled = false ∧ (∀ j, s.pc j ≠ .running) ∧ Sema.Step s 1 .started s' := by
  have r0 : Sema.Reach false { lockMode := false } := .init
  have r1 := r0.step (.readEnabled (i := 1) rfl rfl rfl)
  have r2 := r1.step (.readEnabled (i := 0) rfl rfl rfl)
  have r3 := r2.step (.casOk (i := 0) rfl rfl)
  have r4 := r3.step (.disable (i := 0) rfl)
  have r5 := r4.step (.release (i := 0) rfl)
  refine ⟨_, _, r5, rfl, ?_, .casOk rfl rfl⟩
  intro j
  clear r0 r1 r2 r3 r4 r5
  by_cases h0 : j = 0
  · simp [Sema.St.setPC, h0]
  · by_cases h1 : j = 1 <;> simp [Sema.St.setPC, h0, h1]

/-- non-vacuous: a reachable state with a thread inside, another one being refused -/
example : ∃ s s' : Sema.St, Sema.Reach false s ∧ s.pc 0 = .running ∧ Sema.Step s 1 .inProgress s' := by
  have r0 : Sema.Reach false { lockMode := false } := .init
  have r1 := r0.step (.readEnabled (i := 1) rfl rfl rfl)
  have r2 := r1.step (.readEnabled (i := 0) rfl rfl rfl)
  have r3 := r2.step (.casOk (i := 0) rfl rfl)
  exact ⟨_, _, r3, rfl, .casFail rfl⟩

/-! ### C32: compaction locks -/

/-- A table (or level) is never held by two holders. -/
theorem C32_exclusive {s : Locks.St} (h : Locks.Reach s) {i j : Nat} {ts us : List Nat} {t : Nat}
    (hi : s.held i = some ts) (hj : s.held j = some us) (ht : t ∈ ts) (hu : t ∈ us) : i = j :=
  h.inv.excl i j ts us t hi hj ht hu

/-- What is reported as locked is what somebody holds. -/
theorem C32_locked_iff_held {s : Locks.St} (h : Locks.Reach s) (t : Nat) :
    Locks.isLocked s t = true ↔ ∃ i ts, s.held i = some ts ∧ t ∈ ts := by
  simp only [Locks.isLocked, decide_eq_true_eq]; exact h.inv.mem t

/-- Giving back is never undefined; the holder holds nothing afterwards and the others keep what
    they hold. -/
theorem C32_release {s : Locks.St} (h : Locks.Reach s) (i : Nat) :
    ∃ s', Locks.release s i = some s' ∧ s'.held i = none ∧ ∀ j, j ≠ i → s'.held j = s.held j := by
  obtain ⟨s', e, _, h1, h2⟩ := h.inv.release i
  exact ⟨s', e, h1, h2⟩

/-- One request: it fails exactly when one of the tables is held by somebody, and then changes
    nothing; when it succeeds the requester holds exactly these tables. -/
theorem C32_acquire {s : Locks.St} (h : Locks.Reach s) (i : Nat) (ts : List Nat) :
    ((Locks.acquire s i ts).1 = false ↔ ∃ t ∈ ts, ∃ j us, s.held j = some us ∧ t ∈ us) ∧
    ((Locks.acquire s i ts).1 = false → (Locks.acquire s i ts).2 = s) ∧
    ((Locks.acquire s i ts).1 = true → (Locks.acquire s i ts).2.held i = some ts ∧
      ∀ j, j ≠ i → (Locks.acquire s i ts).2.held j = s.held j) := by
  unfold Locks.acquire
  split
  · next h0 => subst h0; simp [Locks.St.setHeld]; intro j hj e; exact absurd e hj
  · split
    · next hc =>
      refine ⟨⟨fun _ => ?_, fun _ => rfl⟩, fun _ => rfl, fun e => by cases e⟩
      obtain ⟨t, ht, hm⟩ := List.any_eq_true.1 hc
      exact ⟨t, ht, (h.inv.mem t).1 (by simpa using hm)⟩
    · next hc =>
      refine ⟨⟨fun e => (by cases e), ?_⟩, fun e => (by cases e), fun _ => ⟨by simp [Locks.St.setHeld], fun j hj => by simp [Locks.St.setHeld, hj]⟩⟩
      rintro ⟨t, ht, hm⟩
      exact absurd (List.any_eq_true.2 ⟨t, ht, by simpa using (h.inv.mem t).2 hm⟩) hc

/-- A whole attempt (several requests in a row): all or nothing. -/
theorem C32_all_or_nothing {s : Locks.St} (h : Locks.Reach s) (i : Nat)
    (hf : ∀ j, i ≤ j → s.held j = none) (rs : List (List Nat)) (hn : ∀ r ∈ rs, r.Nodup) :
    ∃ b s', Locks.lockAll s i rs = some (b, s') ∧
      (b = false → s'.held = s.held) ∧
      (b = true → (∀ n (hn : n < rs.length), s'.held (i + n) = some rs[n]) ∧
        ∀ j, j < i → s'.held j = s.held j) := by
  obtain ⟨b, s', e, _, h1, h2, h3⟩ := Locks.lockAll_spec rs h.inv i hf hn
  exact ⟨b, s', e, h2, fun hb => ⟨h3 hb, h1⟩⟩

/-- non-vacuous: two compactions holding tables 1,2 and 3; a split of 2 and 4 fails, after the
    lock on 4 was taken, and leaves both as they were; a split of 4 succeeds. -/
example : ∃ s : Locks.St, Locks.Reach s ∧ s.held 0 = some [1, 2] ∧ s.held 1 = some [3] ∧
    (Locks.lockAll s 2 [[4], [2]]).map (·.1) = some false ∧
    (Locks.lockAll s 2 [[4]]).map (·.1) = some true := by
  have r0 : Locks.Reach {} := .init
  have r1 := r0.acquire 0 [1, 2] rfl (by decide)
  have r2 := r1.acquire 1 [3] rfl (by decide)
  exact ⟨_, r2, rfl, rfl, by decide, by decide⟩

/-! ### C30: log files are destroyed exactly once and never in use -/

/-- Without snapshot holders, in every interleaving: the file is destroyed at most once, and once
    it is destroyed nobody holds it or can look it up any more. -/
theorem C30_destroyed_once_unused_partial {straddle : Bool} {n : Nat} {s : RefCount.St}
    (h : RefCount.Reach false straddle n s) :
    s.destroyed ≤ 1 ∧ (s.destroyed = 1 → s.listed = false ∧ ∀ p ∈ s.pcs, p = .out) := by
  have hi := h.inv
  rcases hi.dest with hd | ⟨hd, hr, hl⟩
  · exact ⟨by omega, fun e => by omega⟩
  · refine ⟨by omega, fun _ => ⟨hl, fun p hp => ?_⟩⟩
    have h0 : s.pcs.countP RefCount.PC.isRef = 0 := by rw [← hi.ref]; exact hr
    have hnr := List.countP_eq_zero.1 h0 p hp
    have hns := hi.noSnap p hp
    cases p with
    | out => rfl
    | sT2 c => exact absurd rfl (hns.2 c)
    | snapHold | sF | sT => exact absurd hns.1 (by simp [RefCount.PC.isSnap])
    | _ => exact absurd rfl hnr

/-- Without snapshot holders, and if the removal does not begin while another holder is giving
    the file back: once the file is dropped and the last holder has let go, it has been
    destroyed. -/
theorem C30_destroyed_at_last_partial {n : Nat} {s : RefCount.St}
    (h : RefCount.Reach false false n s) (hr : s.removed = true) (ho : ∀ p ∈ s.pcs, p = .out) :
    s.destroyed = 1 := by
  have hi := h.inv
  have h0 : s.ref = 0 := by
    rw [hi.ref, List.countP_eq_zero]
    intro p hp; rw [ho p hp]; simp [RefCount.PC.isRef]
  rcases hi.dest with hd | hd
  · have := (hi.live rfl hr).2 hd; omega
  · exact hd.1

/-- With snapshot holders, when no two calls overlap: the file is destroyed exactly once, at the
    moment the file is dropped and both counters have gone to zero. -/
theorem C30_sequential_partial {s : RefCount.Seq} (h : RefCount.SeqReach s) :
    s.destroyed = if s.removed = true ∧ s.ref = 0 ∧ s.snap = 0 then 1 else 0 :=
  h.inv

/-- Violation: a file that is never destroyed.  Thread 0 reads `removed` as false in `done`,
    thread 1 drops the file and lets go, thread 0 then only lowers the counter. -/
theorem C30_leak_violation : ∃ s : RefCount.St, RefCount.Reach false true 2 s ∧
    s.removed = true ∧ s.listed = false ∧ (∀ p ∈ s.pcs, p = .out) ∧ s.ref = 0 ∧ s.destroyed = 0 := by
  have r0 : RefCount.Reach false true 2 { pcs := [.out, .out] } := .init
  have r1 := r0.step (.grab (i := 0) rfl rfl)
  have r2 := r1.step (.grab (i := 1) rfl rfl)
  have r3 := r2.step (.doneRead (i := 0) rfl)
  have r4 := r3.step (.setRemoved (i := 1) rfl rfl (by simp))
  have r5 := r4.step (.unlist (i := 1) rfl)
  have r6 := r5.step (.doneRead (i := 1) rfl)
  have r7 := r6.step (.doneSnapLoad (i := 1) rfl)
  have r8 := r7.step (.doneT (i := 1) rfl)
  have r9 := r8.step (.doneF (i := 0) rfl)
  exact ⟨_, r9, rfl, rfl, by decide, rfl, rfl⟩

/-- Violation (log-section-only mode): a file that is destroyed twice, the second time by a
    thread that reads the counters of an object that is already deleted. -/
theorem C30_double_destroy_violation : ∃ s : RefCount.St, RefCount.Reach true false 2 s ∧
    s.destroyed = 2 := by
  have r0 : RefCount.Reach true false 2 { pcs := [.out, .out] } := .init
  have r1 := r0.step (.grab (i := 0) rfl rfl)
  have r2 := r1.step (.snapGrab (i := 1) rfl rfl rfl)
  have r3 := r2.step (.setRemoved (i := 0) rfl rfl (by decide))
  have r4 := r3.step (.unlist (i := 0) rfl)
  have r5 := r4.step (.snapRead (i := 1) rfl)
  have r6 := r5.step (.snapSub (i := 1) rfl)
  have r7 := r6.step (.doneRead (i := 0) rfl)
  have r8 := r7.step (.doneSnapLoad (i := 0) rfl)
  have r9 := r8.step (.doneT (i := 0) rfl)
  have r10 := r9.step (.snapT (i := 1) rfl)
  exact ⟨_, r10, rfl⟩

/-- non-vacuous: two holders, one drops the file, both let go, the file is destroyed -/
example : ∃ s : RefCount.St, RefCount.Reach false false 2 s ∧ s.removed = true ∧
    (∀ p ∈ s.pcs, p = .out) ∧ s.destroyed = 1 := by
  have r0 : RefCount.Reach false false 2 { pcs := [.out, .out] } := .init
  have r1 := r0.step (.grab (i := 0) rfl rfl)
  have r2 := r1.step (.grab (i := 1) rfl rfl)
  have r4 := r2.step (.setRemoved (i := 1) rfl rfl (by decide))
  have r5 := r4.step (.unlist (i := 1) rfl)
  have r6 := r5.step (.doneRead (i := 1) rfl)
  have r7 := r6.step (.doneSnapLoad (i := 1) rfl)
  have r8 := r7.step (.doneT (i := 1) rfl)
  have r9 := r8.step (.doneRead (i := 0) rfl)
  have r10 := r9.step (.doneSnapLoad (i := 0) rfl)
  have r11 := r10.step (.doneT (i := 0) rfl)
  exact ⟨_, r11, rfl, by decide, rfl⟩

example : ∃ s : RefCount.Seq, RefCount.SeqReach s ∧ s.destroyed = 1 :=
  ⟨_, .doneSnap (.done (.remove (.grabSnap (.grab .init rfl) rfl) rfl (by decide)) (by decide)) (by decide), rfl⟩

/-! ### C41: eviction of the memory table -/

/-- In every interleaving a user that grabbed the file with loading never finds its memory table
    purged, for as long as it holds the file. -/
theorem C41_memtable_present {n : Nat} {s : Evict.St} (h : Evict.Reach n s) {i : Nat}
    (hi : s.at i (.hold true)) : s.purged = false :=
  h.inv.user (List.countP_pos_iff.2 ⟨_, List.mem_of_getElem? hi, rfl⟩)

/-- Nor is it ever purged by a step while any user is past the lock of `grab`, loading or not. -/
theorem C41_not_purged_in_use {n : Nat} {s s' : Evict.St} (h : Evict.Reach n s) {i j : Nat}
    (st : Evict.Step s j s') {b : Bool} (hi : s.at i (.hold b)) (hp : s.purged = false) :
    s'.purged = false := by
  have hin := h.inv
  cases st with
  | purge hj =>
    have h1 : 0 < s.pcs.countP Evict.PC.isP3 := List.countP_pos_iff.2 ⟨_, List.mem_of_getElem? hj, rfl⟩
    have h2 : 0 < s.pcs.countP Evict.PC.past := List.countP_pos_iff.2 ⟨_, List.mem_of_getElem? hi, rfl⟩
    have := hin.p3 h1; omega
  | grabLoad => rfl
  | _ => exact hp

/-- non-vacuous: the file is evicted and purged, then loaded again by the next user -/
example : ∃ s : Evict.St, Evict.Reach 1 s ∧ s.purged = true ∧
    ∃ s', Evict.Reach 1 s' ∧ s'.at 0 (.hold true) ∧ s'.evicted = false := by
  have r0 : Evict.Reach 1 { evicted := false, purged := false, pcs := [.out] } := .init false
  have r1 := r0.step (.grab (i := 0) false rfl)
  have r2 := r1.step (.grabLock (i := 0) rfl rfl)
  have r3 := r2.step (.grabKeep (i := 0) rfl (Or.inl rfl))
  have r4 := r3.step (.setEvicted (i := 0) rfl rfl)
  have r5 := r4.step (.doneRead (i := 0) rfl)
  have r6 := r5.step (.doneE (i := 0) rfl)
  have r7 := r6.step (.purgeLock (i := 0) rfl rfl)
  have r8 := r7.step (.purgeYes (i := 0) rfl rfl rfl)
  have r9 := r8.step (.purge (i := 0) rfl)
  have r10 := r9.step (.grab (i := 0) true rfl)
  have r11 := r10.step (.grabLock (i := 0) rfl rfl)
  have r12 := r11.step (.grabLoad (i := 0) rfl rfl rfl)
  exact ⟨_, r9, rfl, _, r12, rfl, rfl⟩

/-! ### C45: table and log file numbers -/

/-- The numbers handed out since the manifest was opened with the counter at `m0` are pairwise
    different, and larger than every number handed out before (`m0` is the largest of those;
    NIL says there are none), as long as fewer than 2^64 - 1 numbers are used in total. -/
theorem C45_numbers_distinct {m0 : Nat} {s : Numbers.St} (h : Numbers.Reach m0 s)
    (hb : Numbers.ord m0 + s.issued.length ≤ NIL) :
    s.issued.Nodup ∧ ∀ x ∈ s.issued, m0 ≠ NIL → m0 < x := by
  have hi := h.inv hb
  rw [hi.issued]
  constructor
  · rw [List.nodup_reverse]
    refine List.Nodup.map_on ?_ List.nodup_range
    intro a ha b hb' e
    rw [List.mem_range] at ha hb'
    have := Numbers.val_inj (by omega) (by omega) e
    omega
  · intro x hx hm
    rw [List.mem_reverse, List.mem_map] at hx
    obtain ⟨j, _, rfl⟩ := hx
    unfold Numbers.val Numbers.ord
    rw [if_neg hm, if_neg (by omega)]; omega

/-- The numbers are consecutive: none is skipped. -/
theorem C45_numbers_consecutive {m0 : Nat} {s : Numbers.St} (h : Numbers.Reach m0 s) (hm : m0 ≠ NIL)
    (hb : m0 + 1 + s.issued.length ≤ NIL) :
    s.issued.reverse = (List.range s.issued.length).map (fun j => m0 + 1 + j) := by
  have ho : Numbers.ord m0 = m0 + 1 := by unfold Numbers.ord; rw [if_neg hm]
  have hi := h.inv (by rw [ho]; exact hb)
  have := hi.issued
  rw [ho] at this
  conv => lhs; rw [this]
  rw [List.reverse_reverse]
  apply List.map_congr_left
  intro j _; unfold Numbers.val; rw [if_neg (by omega)]; omega

/-- Across reopening: numbers handed out after the counter was stored and loaded again differ
    from all numbers handed out before. -/
theorem C45_numbers_distinct_after_reopen {m0 : Nat} {s s2 : Numbers.St} (h : Numbers.Reach m0 s)
    (h2 : Numbers.Reach s.max s2)
    (hb : Numbers.ord m0 + s.issued.length + s2.issued.length ≤ NIL) :
    (s2.issued ++ s.issued).Nodup := by
  have hi := h.inv (by omega)
  have hm := hi.max
  have ho : Numbers.ord s.max = Numbers.ord m0 + s.issued.length := by
    rw [hm, Numbers.ord_val (by omega)]
  have hi2 := h2.inv (by omega)
  refine List.nodup_append.2 ⟨(C45_numbers_distinct h2 (by omega)).1, (C45_numbers_distinct h (by omega)).1, ?_⟩
  intro a ha b hb' e
  subst e
  rw [hi2.issued] at ha; rw [hi.issued] at hb'
  simp only [List.mem_reverse, List.mem_map, List.mem_range] at ha hb'
  obtain ⟨j, hj, rfl⟩ := ha
  obtain ⟨k, hk, e⟩ := hb'
  have := Numbers.val_inj (by omega) (by omega) e
  omega

/-- non-vacuous: two threads race for the first two numbers -/
example : ∃ s : Numbers.St, Numbers.Reach NIL s ∧ s.issued = [1, 0] ∧
    Numbers.ord NIL + s.issued.length ≤ NIL := by
  have r0 : Numbers.Reach NIL { max := NIL } := .init
  have r1 := r0.step (.firstFail (i := 0) rfl)
  have r2 := r1.step (.firstOk (i := 1) rfl rfl)
  have r3 := r2.step (.load (i := 0) rfl)
  have r4 := r3.step (.add (i := 0) rfl)
  have r5 := r4.step (.casOk (i := 0) rfl rfl)
  exact ⟨_, r5, rfl, by decide⟩

/-! ### C43: no lost wake-up -/

/-- Requests without a delay, `compare_exchange_weak` not failing without reason: if the worker
    sleeps while a request is queued, a requesting thread is still inside the call that signals
    it. -/
theorem C43_no_lost_wakeup_partial {n : Nat} {s : Awaiter.St} (h : Awaiter.Reach false false n s)
    (hw : s.w = .sleep) (hq : s.queue ≠ []) : ∃ p ∈ s.ns, p ≠ .out := by
  have hy := h.inv.why hq
  rw [hw] at hy
  simp only [Awaiter.why] at hy
  by_contra hc
  have ho : ∀ p ∈ s.ns, p = .out := by
    intro p hp; by_contra hne; exact hc ⟨p, hp, hne⟩
  have z : ∀ q, q ≠ Awaiter.N.out → s.ns.countP (Awaiter.is q) = 0 := by
    intro q hq; rw [List.countP_eq_zero]; intro p hp; rw [ho p hp]
    simp only [Awaiter.is, decide_eq_true_eq]; exact fun e => hq e.symm
  rw [z _ (by simp), z _ (by simp), z _ (by simp), z _ (by simp)] at hy
  omega

/-- Said the other way: when all requesting calls have returned, a sleeping worker has an empty
    queue. -/
theorem C43_asleep_only_if_empty_partial {n : Nat} {s : Awaiter.St}
    (h : Awaiter.Reach false false n s) (hw : s.w = .sleep) (ho : ∀ p ∈ s.ns, p = .out) :
    s.queue = [] := by
  by_contra hq
  obtain ⟨p, hp, hne⟩ := C43_no_lost_wakeup_partial h hw hq
  exact hne (ho p hp)

/-- A requesting thread inside the call is never stuck: it, the worker, or another requesting
    thread can take a step of the awaiter. -/
theorem C43_signal_progress {n : Nat} {s : Awaiter.St} (h : Awaiter.Reach false false n s)
    (hw : s.w = .sleep) {p : Awaiter.N} (hp : p ∈ s.ns) (hne : p ≠ .out) :
    ∃ i s', ∃ q, s.at i q ∧ q ≠ .out ∧ Awaiter.Step false false s s' ∧ s'.ns[i]? ≠ some q := by
  have hi := h.inv
  have hst := hi.st
  rw [hw] at hst
  simp only [Awaiter.okStatus] at hst
  have hidx : ∀ q, q ∈ s.ns → ∃ i, s.at i q := fun q hq => by
    obtain ⟨i, hi, e⟩ := List.getElem_of_mem hq
    exact ⟨i, by unfold Awaiter.St.at; rw [List.getElem?_eq_getElem hi, e]⟩
  have hset : ∀ {i q r}, s.at i q → r ≠ q → (s.ns.set i r)[i]? ≠ some q := by
    intro i q r ha hr
    have hlt : i < s.ns.length := (List.getElem?_eq_some_iff.1 ha).1
    rw [List.getElem?_set_self hlt]; simpa using hr
  have step2 : ∀ i, s.at i .i2 → ∃ i s', ∃ q, s.at i q ∧ q ≠ .out ∧ Awaiter.Step false false s s' ∧ s'.ns[i]? ≠ some q :=
    fun i ha => ⟨i, _, .i2, ha, by simp, .inv2no ha (by rw [hst]; simp), hset ha (by simp)⟩
  have step3 : ∀ i, s.at i .i3 → ∃ i s', ∃ q, s.at i q ∧ q ≠ .out ∧ Awaiter.Step false false s s' ∧ s'.ns[i]? ≠ some q :=
    fun i ha => ⟨i, _, .i3, ha, by simp, .inv3 ha, hset ha (by simp)⟩
  obtain ⟨i, ha⟩ := hidx p hp
  cases p with
  | out => exact absurd rfl hne
  | timer =>
    exfalso
    have : 0 < s.ns.countP (Awaiter.is .timer) := List.countP_pos_iff.2 ⟨_, hp, by simp [Awaiter.is]⟩
    have := hi.tm; omega
  | i0 => exact ⟨i, _, .i0, ha, by simp, .inv0no ha (by rw [hst]; simp), hset ha (by simp)⟩
  | i1 =>
    cases hl : s.lock
    · exact ⟨i, _, .i1, ha, by simp, .inv1 ha hl, hset ha (by simp)⟩
    · have hk := hi.lock
      rw [hl, hw] at hk; simp only [Awaiter.wLock, if_true] at hk
      obtain ⟨q, hq, hq'⟩ := List.countP_pos_iff.1 (show 0 < s.ns.countP Awaiter.inLock by omega)
      obtain ⟨k, hk⟩ := hidx q hq
      cases q with
      | i2 => exact step2 k hk
      | i3 => exact step3 k hk
      | _ => simp [Awaiter.inLock] at hq'
  | i2 => exact step2 i ha
  | i3 => exact step3 i ha

/-- Violation with a delayed request in front: the worker takes it, sees the immediate request
    behind it but does not set `doNotSleepNextTime`, and sleeps with the request queued although
    the requesting call has returned. -/
theorem C43_delayed_request_violation : ∃ s : Awaiter.St, Awaiter.Reach true false 2 s ∧
    s.w = .sleep ∧ s.queue = [false] ∧ ∀ p ∈ s.ns, p = .out := by
  have r0 : Awaiter.Reach true false 2 { ns := [.out, .out] } := .init
  have r1 := r0.step (.push (i := 0) true rfl (by simp))
  have r2 := r1.step (.push (i := 1) false rfl (by simp))
  have r3 := r2.step (.inv0ok (i := 1) rfl rfl)
  -- the timer of the delayed request fires, too
  have r4 := r3.step (.fire (i := 0) rfl)
  have r5 := r4.step (.inv0no (i := 0) rfl (by simp))
  have r6 := r5.step (.inv1 (i := 0) rfl rfl)
  have r7 := r6.step (.inv2no (i := 0) rfl (by simp))
  have r8 := r7.step (.inv3 (i := 0) rfl)
  -- the worker finds the signal, resets it and takes the delayed request
  have r9 := r8.step (.top rfl)
  have r10 := r9.step (.cas1no rfl (by simp))
  have r11 := r10.step (.reset rfl)
  have r12 := r11.step (.casWork rfl rfl)
  have r13 := r12.step (.pop rfl)
  have r14 := r13.step (.sizeCheck rfl)
  have r15 := r14.step (.finish rfl)
  -- and goes to sleep
  have r16 := r15.step (.top rfl)
  have r17 := r16.step (.cas1ok rfl rfl)
  have r18 := r17.step (.lock rfl rfl)
  have r19 := r18.step (.cas2ok rfl rfl)
  have r20 := r19.step (.wait rfl)
  exact ⟨_, r20, rfl, rfl, by decide⟩

/-- Violation if `compare_exchange_weak` fails without reason after a wake-up: the signal is
    used up, no work is done, and the worker sleeps with the request queued. -/
theorem C43_spurious_failure_violation : ∃ s : Awaiter.St, Awaiter.Reach false true 1 s ∧
    s.w = .sleep ∧ s.queue = [false] ∧ ∀ p ∈ s.ns, p = .out := by
  have r0 : Awaiter.Reach false true 1 { ns := [.out] } := .init
  have r1 := r0.step (.push (i := 0) false rfl (by simp))
  have r2 := r1.step (.inv0ok (i := 0) rfl rfl)
  have r3 := r2.step (.top rfl)
  have r4 := r3.step (.cas1no rfl (by simp))
  have r5 := r4.step (.reset rfl)
  have r6 := r5.step (.casWorkNo rfl (Or.inr rfl))
  have r7 := r6.step (.top rfl)
  have r8 := r7.step (.cas1ok rfl rfl)
  have r9 := r8.step (.lock rfl rfl)
  have r10 := r9.step (.cas2ok rfl rfl)
  have r11 := r10.step (.wait rfl)
  exact ⟨_, r11, rfl, rfl, by decide⟩

/-- non-vacuous: the worker sleeps, a request arrives, its signal is under way; and a worker that
    sleeps with an empty queue after it has served a request -/
example : ∃ s : Awaiter.St, Awaiter.Reach false false 1 s ∧ s.w = .sleep ∧ s.queue ≠ [] := by
  have r0 : Awaiter.Reach false false 1 { ns := [.out] } := .init
  have r1 := r0.step (.top rfl)
  have r2 := r1.step (.cas1ok rfl rfl)
  have r3 := r2.step (.lock rfl rfl)
  have r4 := r3.step (.cas2ok rfl rfl)
  have r5 := r4.step (.wait rfl)
  have r6 := r5.step (.push (i := 0) false rfl (by simp))
  exact ⟨_, r6, rfl, by simp⟩

/-! ### C44: the queue of flush requests -/

/-- At most one request per DB is queued. -/
theorem C44_one_per_db {q hist out} (h : FlusherQ.Run q hist out) : (q.map (·.db)).Nodup := h.nodup

/-- Requests are served in the order in which their DBs entered the queue: a new DB goes to the
    end, a DB that is queued keeps its place, and `pop` takes the front. -/
theorem C44_order (q : FlusherQ.Queue) (r : FlusherQ.Req) :
    ((FlusherQ.push q r).map (·.db) =
      if r.db ∈ q.map (·.db) then q.map (·.db) else q.map (·.db) ++ [r.db]) ∧
    (FlusherQ.pop q).1 = q.head? ∧ (FlusherQ.pop q).2 = q.tail := by
  refine ⟨FlusherQ.push_dbs q r, ?_⟩
  cases q <;> exact ⟨rfl, rfl⟩

/-- No completion handler is dropped, duplicated or reordered: for every DB the handlers of the
    served requests, followed by those of the queued one, are the handlers given so far. -/
theorem C44_handlers_kept {q hist out} (h : FlusherQ.Run q hist out) (db : Nat) :
    FlusherQ.handlersOf db out ++ FlusherQ.handlersOf db q = FlusherQ.handlersOf db hist :=
  h.handlers db

/-- A queued request asks for what the last request for its DB asked. -/
theorem C44_latest_wins_partial {q hist out} (h : FlusherQ.Run q hist out) :
    ∀ e ∈ q, ∃ r, FlusherQ.lastFor e.db hist = some r ∧ e.upto = r.upto ∧ e.opts = r.opts := h.last

/-- Violation: a request to flush everything (`NIL`) followed by one to flush up to 5 leaves a
    queued request that flushes up to 5 only; the handler of the first one is called for it. -/
theorem C44_weakened_violation : ∃ q hist, FlusherQ.Run q hist [] ∧
    (∃ r ∈ hist, r.db = 0 ∧ r.upto = NIL) ∧
    q = [{ db := 0, upto := 5, opts := 0, handlers := [1, 2] }] :=
  ⟨_, _, .push { db := 0, upto := 5, opts := 0, handlers := [2] }
      (.push { db := 0, upto := NIL, opts := 0, handlers := [1] } .init),
    ⟨_, List.mem_cons_self, rfl, rfl⟩, by decide⟩

/-- non-vacuous: three requests for two DBs, one served -/
example : ∃ q hist out, FlusherQ.Run q hist out ∧ q.map (·.db) = [1] ∧ out.map (·.db) = [0] ∧
    FlusherQ.handlersOf 0 out = [7, 9] :=
  ⟨_, _, _, .pop (.push ⟨0, 2, 0, [9]⟩ (.push ⟨1, 2, 0, [8]⟩ (.push ⟨0, 1, 0, [7]⟩ .init))),
    by decide, by decide, by decide⟩

end Jungle
