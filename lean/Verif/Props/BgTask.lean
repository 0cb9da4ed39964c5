/-
  C64.  Closing a database while background workers use it.

  Reading guide.  `Reach reuse k s`: `s` is a state of some execution of `k` threads (callers of the API,
  flushers, compactors, the reclaimer of log files, the command handler).  `s.bad`: freed memory was
  used.  `CalmReach`: at no time of the execution has a close waited for its limit of 100 rounds of
  100 ms with a flush or compaction of that database still going on (`InTime`), and no database that is
  being closed is on the list of the reclaimer or of the command handler (`Unseen`).
-/
import Verif.Conc.BgTask

set_option linter.unusedSimpArgs false

namespace Jungle

open Bg

/-- **C64** (partial) Closing never frees a database in use: if no background task of a database that
    is being closed lasts longer than the limit, and no log-file reclaimer or command handler has it on
    its list, no thread ever uses a freed database.
    Missing: the two conditions (see the violations below). -/
theorem C64_never_freed_in_use_partial {reuse : Bool} {k : Nat} {s : St} (h : CalmReach reuse k s) :
    s.bad = false ∧ ∀ i p a, s.at i p → p.task a = true → s.mem a ≠ none :=
  ⟨h.inv.good, fun _ _ _ h1 h2 => h.inv.alive h1 h2⟩

/-- **C64** No new flush or compaction begins, and no database is opened, closed or freed by another
    thread, while a close waits: in no execution, whatever the database. -/
theorem C64_nothing_begins_while_closing {reuse : Bool} {k : Nat} {s s' : St} {i j a t : Nat}
    {b : Option Nat} (h : Reach reuse k s) (hw : s.at i (.wait a t b)) (hj : j ≠ i)
    (hs : Step reuse s j s') :
    s'.mem = s.mem ∧ s'.map = s.map ∧ (∀ c, s'.tasks c ≤ s.tasks c) ∧ s'.at i (.wait a t b) := by
  have hl : s.locked = true := (h.base.waiting _ _ _ _ hw).1
  have no : ∀ {α : Prop}, s.locked = false → α := fun e => by rw [hl] at e; cases e
  have key : ∀ (s1 : St) (p q : PC), s.at j p → s1.pcs = s.pcs.set j q →
      (∀ c, q.task c = true → p.task c = true) →
      (∀ c, s1.tasks c ≤ s.tasks c) ∧ s1.at i (.wait a t b) := by
    intro s1 p q hp e hq
    refine ⟨fun c => ?_, ?_⟩
    · have h1 := tasks_goto (q := q) c hp
      have h2 : s1.tasks c = (s.goto j q).tasks c := by unfold St.tasks St.goto; rw [e]
      rw [h2]
      cases hqc : q.task c with
      | false => rw [hqc] at h1; simp at h1; split at h1 <;> omega
      | true => rw [hqc, hq c hqc] at h1; omega
    · have := goto_at_ne (q := q) hw (fun e => hj e.symm)
      unfold St.at St.goto at *; rw [e]; exact this
  have nt : ∀ (p : PC) (c : Nat), PC.task c .idle = true → p.task c = true := fun p c e => (nomatch e)
  cases hs with
  | opened h1 h2 h3 h4 => exact no h2
  | request h1 h2 h3 => exact ⟨rfl, rfl, fun _ => Nat.le_refl _, hw⟩
  | @pop r q h1 h2 => exact ⟨rfl, rfl, key _ _ (.popped r) h1 rfl (fun c e => (nomatch e))⟩
  | found h1 h2 h3 => exact no h2
  | stale h1 h2 h3 => exact no h2
  | pick h1 h2 h3 => exact no h2
  | work h1 => exact ⟨rfl, rfl, fun _ => Nat.le_refl _, hw⟩
  | @answer a r h1 => exact ⟨rfl, rfl, key _ _ (.handler a) h1 rfl (fun c e => e)⟩
  | @worked a h1 => exact ⟨rfl, rfl, key _ _ (.ending a) h1 rfl (fun c e => e)⟩
  | @returned a h1 => exact ⟨rfl, rfl, key _ _ (.ending a) h1 rfl (fun c e => e)⟩
  | ended h1 => exact ⟨rfl, rfl, key _ _ .idle h1 rfl (nt _)⟩
  | close h1 h2 h3 => exact no h2
  | closeInHandler h1 h2 h3 => exact no h2
  | tick h1 h2 h3 => exact absurd (h.base.one _ _ _ _ _ _ _ _ h1 hw) hj
  | destroy h1 h2 => exact absurd (h.base.one _ _ _ _ _ _ _ _ h1 hw) hj
  | scan h1 h2 h3 => exact no h2
  | @visit a l h1 => exact ⟨rfl, rfl, key _ _ (.seen l) h1 rfl (fun c e => (nomatch e))⟩
  | visited h1 => exact ⟨rfl, rfl, key _ _ .idle h1 rfl (nt _)⟩

/-- **C64** A close is never stuck: the closing thread can always go on, -/
theorem C64_close_can_go_on {reuse : Bool} {s : St} {i a t : Nat} {b : Option Nat}
    (hw : s.at i (.wait a t b)) : ∃ s', Step reuse s i s' := by
  by_cases h : s.cnt a = 0 ∨ maxCloseRetry ≤ t
  · exact ⟨_, Step.destroy hw h⟩
  · exact ⟨_, Step.tick hw (fun e => h (Or.inl e)) (by
      have := fun e => h (Or.inr e); omega)⟩

/-- ... and among any 101 of its steps is one that ends the wait, whatever the other threads do in
    between. -/
theorem C64_close_returns {reuse : Bool} {s s' : St} {i a t : Nat} {b : Option Nat} {l : List Nat}
    (hw : s.at i (.wait a t b)) (hr : Run reuse s l s') (hl : maxCloseRetry < l.count i) :
    ∃ l1 l2 s1, l = l1 ++ l2 ∧ Run reuse s l1 s1 ∧ Run reuse s1 l2 s' ∧ s1.at i (back b) := by
  have key : ∀ l s t, s.at i (.wait a t b) → Run reuse s l s' → maxCloseRetry < l.count i + t →
      (0 < l.count i) →
      ∃ l1 l2 s1, l = l1 ++ l2 ∧ Run reuse s l1 s1 ∧ Run reuse s1 l2 s' ∧ s1.at i (back b) := by
    intro l
    induction l with
    | nil => intro s t _ _ _ h0; simp at h0
    | cons j l ih =>
      intro s t hw hr hl h0
      cases hr with
      | cons h1 h2 =>
        rename_i s1
        by_cases e : j = i
        · subst e
          have e1 : (j :: l).count j = l.count j + 1 := List.count_cons_self
          -- a step of the closing thread
          have hs : s1.at j (back b) ∨ (s1.at j (.wait a (t + 1) b) ∧ t < maxCloseRetry) := by
            cases h1 with
            | tick g1 g2 g3 =>
              cases at_unique hw g1; exact Or.inr ⟨goto_at g1, g3⟩
            | @destroy a' t' b' g1 g2 =>
              cases at_unique hw g1
              exact Or.inl (goto_at (s := { s.touch a with mem := upd s.mem a none, locked := false }) g1)
            | _ g1 => cases at_unique hw g1
          rcases hs with hs | ⟨hs, ht⟩
          · exact ⟨[j], l, s1, rfl, Run.cons h1 Run.nil, h2, hs⟩
          · obtain ⟨l1, l2, s2, e2, r1, r2, hb⟩ := ih s1 (t + 1) hs h2 (by omega) (by omega)
            exact ⟨j :: l1, l2, s2, by rw [e2]; rfl, Run.cons h1 r1, r2, hb⟩
        · have e1 : (j :: l).count i = l.count i := List.count_cons_of_ne (by simpa using e)
          have hs : s1.at i (.wait a t b) := by
            have hne : i ≠ j := fun e' => e e'.symm
            cases h1 with
            | opened g1 g2 g3 g4 => exact hw
            | request g1 g2 g3 => exact hw
            | work g1 => exact hw
            | _ => exact goto_at_ne hw hne
          obtain ⟨l1, l2, s2, e2, r1, r2, hb⟩ := ih s1 t hs h2 (by omega) (by omega)
          exact ⟨j :: l1, l2, s2, by rw [e2]; rfl, Run.cons h1 r1, r2, hb⟩
  exact key l s t hw hr (by omega) (by omega)

/-- **C64** Every flush request is answered at most once and none is lost: at any time the requests
    made for a database are those in the queue, those taken by a flusher and not answered yet, and those
    answered.  In every execution. -/
theorem C64_requests_answered_once {reuse : Bool} {k : Nat} {s : St} (h : Reach reuse k s) (d : Nat) :
    s.asked.count d = (s.queue.map Req.db).count d + s.pcs.countP (PC.holds d) +
      (s.ran.map Prod.fst).count d + s.notFound.count d :=
  h.balanced d

/-- **C64** The answer DB_HANDLE_NOT_FOUND is true: the database the request was made for is not open
    any more, in every execution and at all later times. -/
theorem C64_not_found_means_closed {reuse : Bool} {k : Nat} {s : St} (h : Reach reuse k s) {d : Nat}
    (hd : d ∈ s.notFound) (a : Nat) (ha : s.mem a = some d) : s.map a = false :=
  (h.names.gone d hd).2 a ha

/-- **C64** (partial) A request that is answered otherwise has flushed the database it was made for, if
    the address of a freed database object is not given out again by the allocator (and under the
    conditions of `CalmReach`).
    Missing: allocators that reuse addresses (see the violation). -/
theorem C64_request_flushes_its_database_partial {k : Nat} {s : St} (h : CalmReach false k s) :
    ∀ x ∈ s.ran, x.2 = some x.1 := by
  intro x hx
  rcases h.reach.fresh.ran x hx with h1 | h1
  · exact h1
  · exact absurd h1 (h.ran x hx)

/-! ### witnesses -/

namespace BgEx

theorem wait_long {reuse : Bool} {k i a : Nat} {b : Option Nat} {s : St}
    (h : Reach reuse k s) (hw : s.at i (.wait a 0 b)) (hc : s.cnt a ≠ 0) :
    ∀ n, n ≤ maxCloseRetry → Reach reuse k (s.goto i (.wait a n b)) := by
  intro n
  induction n with
  | zero =>
    intro _
    have : s.goto i (.wait a 0 b) = s := by unfold St.goto; rw [set_self hw]
    rw [this]; exact h
  | succ n ih =>
    intro hn
    have h1 := ih (Nat.le_of_succ_le hn)
    have h2 := Step.tick (reuse := reuse) (goto_at (q := .wait a n b) hw) hc hn
    have e : (s.goto i (.wait a n b)).goto i (.wait a (n + 1) b) = s.goto i (.wait a (n + 1) b) := by
      unfold St.goto; simp
    rw [e] at h2
    exact Reach.step h1 h2

def s0 (k : Nat) : St := { pcs := List.replicate k .idle }

/-- one database, at address 7 -/
def s1 (k : Nat) : St :=
  { s0 k with
      mem := upd (s0 k).mem 7 (some 0), map := upd (s0 k).map 7 true, cnt := upd (s0 k).cnt 7 0
      used := upd (s0 k).used 7 true, next := 1 }

theorem r1 (reuse : Bool) (k : Nat) : Reach reuse (k + 1) (s1 (k + 1)) :=
  Reach.step Reach.init (Step.opened (i := 0) (a := 7) (by simp [St.at, List.replicate])
    rfl rfl (Or.inr rfl))

/-- thread 0 compacts it -/
def s2 : St := ((s1 2).inc 7).goto 0 (.busy 7 none)

theorem r2 (reuse : Bool) : Reach reuse 2 s2 :=
  Reach.step (r1 reuse 1) (Step.pick (by simp [St.at, s1, s0, List.replicate]) rfl rfl)

/-- thread 1 closes it -/
def s3 : St := { s2 with map := upd s2.map 7 false, locked := true }.goto 1 (.wait 7 0 none)

theorem r3 (reuse : Bool) : Reach reuse 2 s3 :=
  Reach.step (r2 reuse) (Step.close rfl rfl rfl)

/-- the compaction ends -/
def s4 : St := (((s3.touch 7).goto 0 (.ending 7)).touch 7 |>.dec 7).goto 0 .idle

theorem s4_inTime {s : St} (h : s.pcs = [.busy 7 none, .wait 7 0 none] ∨
    s.pcs = [.ending 7, .wait 7 0 none] ∨ s.pcs = [.idle, .wait 7 0 none] ∨
    s.pcs = [.idle, .idle] ∨ s.pcs = [.busy 7 none, .idle]) : s.InTime ∧ s.Unseen := by
  have g : ∀ i a t b, s.at i (.wait a t b) → t = 0 := by
    intro i a t b hi
    unfold St.at at hi
    have := List.mem_of_getElem? hi
    rcases h with h | h | h | h | h <;> rw [h] at this <;> simp at this <;> exact this.2.1
  refine ⟨fun i a t b hi ht => ?_, fun i a t b hi j p hj => ?_⟩
  · rw [g i a t b hi] at ht; exact absurd ht (by decide)
  · unfold St.at at hj
    have := List.mem_of_getElem? hj
    rcases h with h | h | h | h | h <;> rw [h] at this <;> simp at this <;>
      first
        | (rcases this with e | e <;> subst e <;> rfl)
        | (subst this; rfl)

/-- a close that waited for a compaction and then freed the database -/
def s5 : St := { s4.touch 7 with mem := upd s4.mem 7 none, locked := false }.goto 1 .idle

theorem r5 (reuse : Bool) : CalmReach reuse 2 s5 := by
  have q0 : ({ pcs := List.replicate 2 .idle } : St).pcs = [.idle, .idle] := rfl
  have c0 : CalmReach reuse 2 { pcs := List.replicate 2 .idle } := CalmReach.init
  have c1 : CalmReach reuse 2 (s1 2) := CalmReach.step c0 (s4_inTime (by simp [q0])).1
    (s4_inTime (by simp [q0])).2
    (Step.opened (i := 0) (a := 7) rfl rfl rfl (Or.inr rfl))
  have q1 : (s1 2).pcs = [.idle, .idle] := rfl
  have c2 : CalmReach reuse 2 s2 := CalmReach.step c1 (s4_inTime (by simp [q1])).1
    (s4_inTime (by simp [q1])).2 (Step.pick rfl rfl rfl)
  have q2 : s2.pcs = [.busy 7 none, .idle] := rfl
  have c3 : CalmReach reuse 2 s3 := CalmReach.step c2 (s4_inTime (by simp [q2])).1
    (s4_inTime (by simp [q2])).2 (Step.close rfl rfl rfl)
  have q3 : s3.pcs = [.busy 7 none, .wait 7 0 none] := rfl
  have c4 : CalmReach reuse 2 ((s3.touch 7).goto 0 (.ending 7)) :=
    CalmReach.step c3 (s4_inTime (by simp [q3])).1 (s4_inTime (by simp [q3])).2
      (Step.worked rfl)
  have q4 : ((s3.touch 7).goto 0 (.ending 7)).pcs = [.ending 7, .wait 7 0 none] := rfl
  have c5 : CalmReach reuse 2 s4 := CalmReach.step c4 (s4_inTime (by simp [q4])).1
    (s4_inTime (by simp [q4])).2 (Step.ended rfl)
  have q5 : s4.pcs = [.idle, .wait 7 0 none] := rfl
  exact CalmReach.step c5 (s4_inTime (by simp [q5])).1 (s4_inTime (by simp [q5])).2
    (Step.destroy (i := 1) (a := 7) (t := 0) (b := none) rfl (Or.inl rfl))

/-- the database was freed, with no use after that -/
example : CalmReach true 2 s5 ∧ s5.mem 7 = none ∧ s5.bad = false :=
  ⟨r5 true, rfl, (C64_never_freed_in_use_partial (r5 true)).1⟩

/-- a close that waits -/
example : Reach true 2 s3 ∧ s3.at 1 (.wait 7 0 none) := ⟨r3 true, rfl⟩

end BgEx

/-- **C64** (violation) A close waits ten seconds only: if a compaction lasts longer, the database is
    freed under it. -/
theorem C64_long_task_violation :
    ∃ s, Reach false 2 s ∧ s.bad = true ∧ s.at 0 (.busy 7 none) := by
  have h1 := BgEx.wait_long (BgEx.r3 false) (i := 1) (a := 7) (b := none) rfl (by decide)
    maxCloseRetry (Nat.le_refl _)
  have h2 := Reach.step h1 (Step.destroy (goto_at (s := BgEx.s3) (p := .wait 7 0 none) rfl)
    (Or.inr (Nat.le_refl _)))
  have h3 := Reach.step h2 (Step.work (i := 0) (a := 7) (r := none) rfl)
  exact ⟨_, h3, rfl, rfl⟩

/-- **C64** (violation) A callback of a flush request that closes the database waits for itself, for the
    full ten seconds; then the database is freed, and the flusher counts its task down in the freed
    object. -/
theorem C64_close_in_callback_violation :
    (∀ (s : St) (i a t : Nat), s.InTime → s.at i (.wait a t (some a)) → t < maxCloseRetry) ∧
    ∃ s, Reach false 1 s ∧ s.bad = true ∧ s.at 0 .idle := by
  refine ⟨fun s i a t h hw => ?_, ?_⟩
  · by_cases ht : maxCloseRetry ≤ t
    · have := h i a t _ hw ht i _ hw
      simp [PC.task] at this
    · omega
  · have a1 := Reach.step (BgEx.r1 false 0) (Step.request (i := 0) (a := 7) (d := 0) rfl rfl rfl)
    have a2 := Reach.step a1 (Step.pop (i := 0) (r := ⟨7, 0⟩) (q := []) rfl rfl)
    have a3 := Reach.step a2 (Step.found (i := 0) (r := ⟨7, 0⟩) rfl rfl rfl)
    have a4 := Reach.step a3 (Step.answer (i := 0) (a := 7) (r := ⟨7, 0⟩) rfl)
    have a5 := Reach.step a4 (Step.closeInHandler (i := 0) (a := 7) (b := 7) rfl rfl rfl)
    have a6 := BgEx.wait_long a5 (i := 0) (a := 7) (b := some 7) rfl (by decide)
      maxCloseRetry (Nat.le_refl _)
    have a7 := Reach.step a6 (Step.destroy (i := 0) (a := 7) (t := 100) (b := some 7) rfl
      (Or.inr (Nat.le_refl _)))
    have a8 := Reach.step a7 (Step.returned (i := 0) (a := 7) rfl)
    have a9 := Reach.step a8 (Step.ended (i := 0) (a := 7) rfl)
    exact ⟨_, a9, rfl, rfl⟩

/-- **C64** (violation) The reclaimer of log files (and the command handler) uses databases that it found
    in the map after it has released the lock, and is not counted: a close in between does not wait for
    it at all. -/
theorem C64_reclaimer_violation :
    ∃ s, Reach false 2 s ∧ s.bad = true ∧ (∀ i p, s.at i p → p.task 7 = false) := by
  have a1 := Reach.step (BgEx.r1 false 1) (Step.scan (i := 0) (l := [7]) rfl rfl
    (by intro a h; rw [List.mem_singleton] at h; subst h; rfl))
  have a2 := Reach.step a1 (Step.close (i := 1) (a := 7) rfl rfl rfl)
  have a3 := Reach.step a2 (Step.destroy (i := 1) (a := 7) (t := 0) (b := none) rfl
    (Or.inl rfl))
  have a4 := Reach.step a3 (Step.visit (i := 0) (a := 7) (l := []) rfl)
  refine ⟨_, a4, rfl, ?_⟩
  intro i p hp
  have := List.mem_of_getElem? hp
  have e : p = .seen [] ∨ p = .idle := by
    have q : p ∈ [PC.seen [], PC.idle] := this
    simpa using q
  rcases e with e | e <;> subst e <;> rfl

/-- **C64** (violation) A request in the queue names its database by the address of the object.  If the
    database is closed and another one is opened at the same address, the request flushes the other
    database and its callback is told that the flush succeeded. -/
theorem C64_stale_request_violation :
    ∃ s, CalmReach true 2 s ∧ s.ran = [(0, some 1)] ∧ s.notFound = [] := by
  have calm : ∀ {s : St}, (∀ p ∈ s.pcs, p = .idle ∨ p = .popped ⟨7, 0⟩ ∨ p = .busy 7 (some ⟨7, 0⟩) ∨
      p = .wait 7 0 none) → s.InTime ∧ s.Unseen := by
    intro s h
    refine ⟨fun i a t b hi ht => ?_, fun i a t b hi j p hj => ?_⟩
    · have := h _ (List.mem_of_getElem? hi)
      simp at this
      obtain ⟨-, e, -⟩ := this
      subst e; exact absurd ht (by decide)
    · rcases h _ (List.mem_of_getElem? hj) with e | e | e | e <;> subst e <;> rfl
  have c0 : CalmReach true 2 { pcs := List.replicate 2 .idle } := CalmReach.init
  have go : ∀ {s s' : St} {i : Nat}, CalmReach true 2 s →
      (∀ p ∈ s.pcs, p = .idle ∨ p = .popped ⟨7, 0⟩ ∨ p = .busy 7 (some ⟨7, 0⟩) ∨
        p = .wait 7 0 none) → Step true s i s' → CalmReach true 2 s' :=
    fun h1 h2 h3 => CalmReach.step h1 (calm h2).1 (calm h2).2 h3
  have a1 := go c0 (by decide) (Step.opened (i := 0) (a := 7) rfl rfl rfl (Or.inl rfl))
  have a2 := go a1 (by decide) (Step.request (i := 0) (a := 7) (d := 0) rfl rfl rfl)
  have a3 := go a2 (by decide) (Step.close (i := 0) (a := 7) rfl rfl rfl)
  have a4 := go a3 (by decide) (Step.destroy (i := 0) (a := 7) (t := 0) (b := none) rfl (Or.inl rfl))
  have a5 := go a4 (by decide) (Step.opened (i := 0) (a := 7) rfl rfl rfl (Or.inl rfl))
  have a6 := go a5 (by decide) (Step.pop (i := 1) (r := ⟨7, 0⟩) (q := []) rfl rfl)
  have a7 := go a6 (by decide) (Step.found (i := 1) (r := ⟨7, 0⟩) rfl rfl rfl)
  have a8 := go a7 (by decide) (Step.answer (i := 1) (a := 7) (r := ⟨7, 0⟩) rfl)
  exact ⟨_, a8, rfl, rfl⟩

end Jungle
