/-
  C60: delayed flush requests (`DB::flushLogsAsync` with a delay) and their timers.
  The events `Ev` of Verif/Timer/Model are what a caller sees; the theorems speak of them only,
  except for the time until which the timer thread sleeps.
-/
import Verif.Timer.Progress

namespace Jungle
open Timer

/-- A timer wakes the flush workers at most once. -/
theorem C60_at_most_once {q : Bool} {s : St} (h : Reach q s) {i j id t t' : Nat}
    (hi : s.log[i]? = some (.woken id t)) (hj : s.log[j]? = some (.woken id t')) : i = j := by
  by_contra hne
  have hn := h.inv.once
  have key : ∀ (l : List Ev) (a b : Nat), a < b → l[a]? = some (.woken id t) ∨ l[a]? = some (.woken id t') →
      l[b]? = some (.woken id t) ∨ l[b]? = some (.woken id t') → ¬ (l.filterMap Ev.wokenId).Nodup := by
    intro l
    induction l with
    | nil => intro a b _ h; simp at h
    | cons x l ih =>
      intro a b hab ha hb hnd
      obtain ⟨b', rfl⟩ : ∃ b', b = b' + 1 := ⟨b - 1, by omega⟩
      rw [List.getElem?_cons_succ] at hb
      cases a with
      | zero =>
        rw [List.getElem?_cons_zero] at ha
        have hx : x.wokenId = some id := by
          rcases ha with ha | ha <;> (injection ha with ha; subst ha; rfl)
        rw [List.filterMap_cons_some hx, List.nodup_cons] at hnd
        apply hnd.1
        refine List.mem_filterMap.2 ?_
        rcases hb with hb | hb
        · exact ⟨_, List.mem_of_getElem? hb, rfl⟩
        · exact ⟨_, List.mem_of_getElem? hb, rfl⟩
      | succ a =>
        rw [List.getElem?_cons_succ] at ha
        refine ih a b' (by omega) ha hb ?_
        cases hx : x.wokenId with
        | none => rwa [List.filterMap_cons_none hx] at hnd
        | some v => rw [List.filterMap_cons_some hx, List.nodup_cons] at hnd; exact hnd.2
  rcases Nat.lt_or_gt_of_ne hne with h' | h'
  · exact key s.log i j h' (Or.inl hi) (Or.inr hj) hn
  · exact key s.log j i h' (Or.inr hj) (Or.inl hi) hn

/-- A wake-up belongs to a request that set its timer, and comes more than the requested delay
    after it. -/
theorem C60_not_before_delay {q : Bool} {s : St} (h : Reach q s) {id t : Nat}
    (hw : Ev.woken id t ∈ s.log) :
    ∃ db d t0, Ev.set id db d t0 ∈ s.log ∧ t0 + d < t ∧ t ≤ s.now := by
  obtain ⟨h1, tk, h2, h3, _⟩ := h.inv.wok id t hw
  exact ⟨tk.db, tk.interval, tk.reg, (h.inv.set id _ _ _).2 ⟨tk.st, h2⟩, h3, h1⟩

/-- A timer that closing its DB has cancelled never wakes anyone, before or after. -/
theorem C60_cancelled_never_wakes {q : Bool} {s : St} (h : Reach q s) {id : Nat}
    (hc : Ev.cancelled id ∈ s.log) (t : Nat) : Ev.woken id t ∉ s.log :=
  (h.inv.can id hc).2 t

/-- Full claim: every timer that a request has set, and that is not cancelled, wakes the workers
    if time passes and the timer thread runs.  Proved for histories in which no DB is closed while
    it has a timer that has not finished (`Reach true`); false otherwise, see the violations. -/
theorem C60_fires_partial {s : St} (h : Reach true s) {id db d t0 : Nat} (hs : Ev.set id db d t0 ∈ s.log) :
    ∃ as : List Act, (∀ a ∈ as, a = .co ∨ ∃ n, a = .tick n) ∧ ∃ s', run s as = some s' ∧
      ∃ t, Ev.woken id t ∈ s'.log := by
  obtain ⟨s', ⟨as, h1, h2⟩, h3⟩ := h.fires hs
  exact ⟨as, h1, s', h2, h3⟩

/-- In such histories there is no undefined behaviour. -/
theorem C60_defined_partial {s : St} (h : Reach true s) : s.co ≠ .undefined := h.calm.defined

/-- The timer thread never sleeps for a second or more. -/
theorem C60_sleep_bounded {q : Bool} {s : St} (h : Reach q s) {due : Nat} (hc : s.co = .sleeping due) :
    due < s.now + 1000000 := by
  obtain ⟨h1, h2, _⟩ := h.nap.sleeping due hc
  have : BUSY = 100 := rfl
  have : MAX_SLEEP = 1000000 := rfl
  omega

/-- Full claim: while the timer thread sleeps, no timer is overdue by more than the time its last
    pass took.  Proved for sleeps after a pass that ran no timer; false after one that did
    (`C60_late_violation`).  `t.reg + t.interval` is the time the request asked for. -/
theorem C60_in_time_partial {q : Bool} {s : St} (h : Reach q s) {due : Nat} (hc : s.co = .sleeping due)
    (htook : s.took = false) (hsig : s.signal = false) {id db d t0 : Nat} (hs : Ev.set id db d t0 ∈ s.log)
    (hnc : Ev.cancelled id ∉ s.log) (hnw : ∀ t, Ev.woken id t ∉ s.log) :
    due ≤ t0 + d + (s.ended - s.began) := by
  have hi := h.inv
  have hu : s.co ≠ .undefined := by rw [hc]; exact fun h => nomatch h
  obtain ⟨st, hget⟩ := (hi.set id db d t0).1 hs
  have hst : statOf s id = some st := by unfold statOf; rw [hget]; rfl
  have hw : st = .waiting := by
    cases st with
    | waiting => rfl
    | running => have := (hi.run hu id).1 hst; rw [hc] at this; exact absurd this (by simp [Co.runs])
    | done =>
      rcases hi.fin id hst with h1 | ⟨t, h1⟩
      · exact absurd h1 hnc
      · exact absurd h1 (hnw t)
  subst hw
  have hm : id ∈ s.timed := by
    rcases hi.wait hu id hst with h1 | h1
    · exact h1
    · rw [hc] at h1; exact absurd h1 (by simp [Co.toRun])
  have := (h.nap.sleeping due hc).2.2 htook hsig id hm _ hget
  dsimp only at this
  omega

theorem Timer.run_reach {s s' : St} (h : Reach false s) (as : List Act) (e : run s as = some s') : Reach false s' := by
  induction as generalizing s with
  | nil => injection e with e; exact e ▸ h
  | cons a as ih =>
    unfold run at e
    cases hs : Timer.step s a with
    | none => rw [hs] at e; exact absurd e (by simp)
    | some s1 => rw [hs] at e; exact ih (.step a h (fun h => nomatch h) hs) e

theorem Timer.run_calm {s s' : St} {as : List Act} (hn : ∀ a ∈ as, ∀ db, a ≠ .close db) (h : Reach true s)
    (e : run s as = some s') : Reach true s' := by
  induction as generalizing s with
  | nil => injection e with e; exact e ▸ h
  | cons a as ih =>
    unfold run at e
    cases hs : Timer.step s a with
    | none => rw [hs] at e; exact absurd e (by simp)
    | some s1 =>
      rw [hs] at e
      exact ih (fun x hx => hn x (List.mem_cons_of_mem _ hx))
        (.step a h (fun _ db hdb => absurd hdb (hn a List.mem_cons_self db)) hs) e

namespace TimerEx

/-- a full pass of the coordinator that runs one timer, from its sleep to its next sleep -/
def pass : List Act := [.co, .co, .co, .co, .co, .co, .co, .co]

/-- two DBs ask for a flush in 5 and 7 ms; the first timer fires -/
def two : List Act := [.request 1 5000, .request 2 7000, .co, .co, .co, .co, .co, .tick 5100, .co, .co, .co, .co, .co, .co, .co, .co]

end TimerEx

/-- Closing a DB that has a delayed flush pending makes the timer thread step past the end of its
    list when the delay is over: undefined behaviour (src/simple_thread_pool.h:556-565). -/
theorem C60_close_violation : ∃ s : St, Reach false s ∧ s.co = .undefined ∧
    s.log = [.set 0 1 5000 0, .cancelled 0, .closed 1] := by
  refine ⟨(run .init [.request 1 5000, .close 1, .tick 6000, .co, .co, .co, .co]).get (by decide +kernel),
    run_reach .init _ (Option.some_get _).symm, by decide +kernel, by decide +kernel⟩

/-- If the timer is already running when its DB is closed, `cancel` fails, the DB is freed all the
    same and the timer's handler uses it: undefined behaviour (src/jungle.cc:541, 1020-1052). -/
theorem C60_use_after_close_violation : ∃ s s' : St, Reach false s ∧ step s .co = some s' ∧
    s'.co = .undefined ∧ s.co = .called 0 MAX_SLEEP ∧ s.log = [.set 0 1 5000 0, .closed 1] := by
  refine ⟨(run .init [.request 1 5000, .tick 6000, .co, .co, .co, .co, .co, .close 1]).get (by decide +kernel), _,
    run_reach .init _ (Option.some_get _).symm, rfl, by decide +kernel, by decide +kernel, by decide +kernel⟩

/-- After a pass that ran a timer the thread sleeps as if there were no other: the flush asked for
    at 0 with a delay of 7 ms is left until after a second. -/
theorem C60_late_violation : ∃ (s : St) (due : Nat), Reach false s ∧ s.co = .sleeping due ∧ s.signal = false ∧
    Ev.set 1 2 7000 0 ∈ s.log ∧ statOf s 1 = some .waiting ∧ 0 + 7000 + 900000 < due := by
  refine ⟨(run .init TimerEx.two).get (by decide +kernel), 5100 + (MAX_SLEEP - BUSY),
    run_reach .init _ (Option.some_get _).symm, by decide +kernel, by decide +kernel, by decide +kernel,
    by decide +kernel, by decide +kernel⟩

/-- A request made after the DB's timer has woken the workers, but before that timer counts as
    done, gets no timer: it relies on one that wakes nobody any more. -/
theorem C60_relies_on_past_violation : ∃ s : St, Reach true s ∧
    s.log = [.set 0 1 5000 0, .woken 0 6000, .relied 0 1 5000 6000] := by
  refine ⟨(run .init ([.request 1 5000, .tick 6000] ++ TimerEx.pass.take 7 ++ [.request 1 5000])).get (by decide +kernel), ?_,
    by decide +kernel⟩
  exact run_calm (by simp [TimerEx.pass]) .init (Option.some_get _).symm

/-- A history that meets the hypotheses of the theorems above: two timers, both fire, a DB is
    closed when its timer is done. -/
example : ∃ s : St, Reach true s ∧ s.log = [.set 0 1 5000 0, .set 1 2 7000 0, .woken 0 5100, .woken 1 1006000, .closed 1] := by
  have h1 := run_calm (as := TimerEx.two ++ [.tick 1000900] ++ TimerEx.pass) (by simp [TimerEx.two, TimerEx.pass]) .init
    (Option.some_get (by decide +kernel)).symm
  refine ⟨_, .step (.close 1) h1 ?_ (Option.some_get (by decide +kernel)).symm, by decide +kernel⟩
  intro _ db hdb id hid
  injection hdb with hdb; subst hdb
  have : id = 0 := by
    have e : jobOf ((run .init (TimerEx.two ++ [.tick 1000900] ++ TimerEx.pass)).get (by decide +kernel)) 1 = some 0 := by decide +kernel
    rw [e] at hid; injection hid with hid; exact hid.symm
  subst this
  decide +kernel

end Jungle
