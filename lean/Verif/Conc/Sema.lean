/-
  Model of `OpSema` / `OpSemaWrapper` (src/log_mgr.h:85-128): one semaphore, any number of
  threads, every interleaving of their atomic steps.
-/
import Mathlib.Order.Nat

namespace Jungle.Sema

/-- Where a thread is in `OpSemaWrapper::acquire`, the protected operation, or the destructor. -/
inductive PC
  /-- not in the operation -/
  | idle
  /-- `enabled` was read as true, the compare-and-swap comes next (log_mgr.h:117-118) -/
  | checked
  /-- lock mode: the mutex is held, `grabbed = true` comes next (log_mgr.h:111-112) -/
  | locked
  /-- `acquired = true`: the sync, flush or reclaim runs -/
  | running
  /-- lock mode: `grabbed = false` was written, the unlock comes next (log_mgr.h:100-103) -/
  | releasing
  deriving DecidableEq, Repr

/-- The semaphore and the threads.  `lockMode` is `serializeMultiThreadedLogFlush`, the same for
    all operations of a handle (src/log_mgr.cc:1209,1372,1725). -/
structure St where
  lockMode : Bool
  enabled : Bool := true
  grabbed : Bool := false
  /-- owner of `lock` -/
  lock : Option Nat := none
  pc : Nat → PC := fun _ => .idle

def St.setPC (s : St) (i : Nat) (p : PC) : St :=
  { s with pc := fun j => if j = i then p else s.pc j }

/-- What the caller of `acquire` gets at the end of a step. -/
inductive Out
  | none
  /-- OPERATION_IN_PROGRESS -/
  | inProgress
  /-- the operation starts -/
  | started
  deriving DecidableEq, Repr

/-- One atomic step of thread `i`. -/
inductive Step : St → Nat → Out → St → Prop
  /-- `opSema->enabled` is read (log_mgr.h:117) -/
  | readEnabled {s i} : s.lockMode = false → s.pc i = .idle → s.enabled = true →
      Step s i .none (s.setPC i .checked)
  | readDisabled {s i} : s.lockMode = false → s.pc i = .idle → s.enabled = false →
      Step s i .inProgress s
  /-- `compare_exchange_weak` succeeds (log_mgr.h:118-119) -/
  | casOk {s i} : s.pc i = .checked → s.grabbed = false →
      Step s i .started ({ s with grabbed := true }.setPC i .running)
  /-- it fails because another thread is in; `_weak` may also fail spuriously, so the value is
      not looked at here -/
  | casFail {s i} : s.pc i = .checked → Step s i .inProgress (s.setPC i .idle)
  /-- lock mode: `lock.lock()` (log_mgr.h:111) -/
  | lock {s i} : s.lockMode = true → s.pc i = .idle → s.lock = none →
      Step s i .none ({ s with lock := some i }.setPC i .locked)
  | grab {s i} : s.pc i = .locked → Step s i .started ({ s with grabbed := true }.setPC i .running)
  /-- destructor (log_mgr.h:98-108) -/
  | release {s i} : s.pc i = .running →
      Step s i .none ({ s with grabbed := false }.setPC i (if s.lockMode then .releasing else .idle))
  | unlock {s i} : s.pc i = .releasing →
      Step s i .none ({ s with lock := none }.setPC i .idle)
  /-- `close` disables the semaphore while it holds it (src/log_mgr.cc:2090,2100,2125) -/
  | disable {s i} : s.pc i = .running → Step s i .none { s with enabled := false }

/-- All executions from a new semaphore. -/
inductive Reach (lockMode : Bool) : St → Prop
  | init : Reach lockMode { lockMode := lockMode }
  | step {s i o s'} : Reach lockMode s → Step s i o s' → Reach lockMode s'

/-- The thread is between taking and giving back the permission. -/
def inside : PC → Bool
  | .locked | .running | .releasing => true
  | _ => false

structure Inv (s : St) : Prop where
  one : ∀ i j, inside (s.pc i) = true → inside (s.pc j) = true → i = j
  grab : s.grabbed = true ↔ ∃ i, s.pc i = .running
  free : s.lock = none ↔ s.lockMode = false ∨ ∀ i, inside (s.pc i) = false
  chk : s.lockMode = true → ∀ i, s.pc i ≠ .checked
  lck : s.lockMode = false → ∀ i, s.pc i ≠ .locked ∧ s.pc i ≠ .releasing

theorem Inv.init (m : Bool) : Inv { lockMode := m } :=
  ⟨fun i j h => (by cases h), by simp, by simp [inside], fun _ _ h => (by cases h), by simp⟩

theorem Inv.step {s i o s'} (h : Inv s) (st : Step s i o s') : Inv s' := by
  obtain ⟨h1, h2, h3, h4, h5⟩ := h
  cases st with
  | readEnabled hm hp he =>
    refine ⟨?_, ?_, ?_, ?_, ?_⟩ <;> simp only [St.setPC]
    · intro a b; split <;> split <;> simp [inside]; exact h1 a b
    · rw [h2]; constructor
      · rintro ⟨j, hj⟩; exact ⟨j, by rw [if_neg]; exact hj; rintro rfl; simp [hp] at hj⟩
      · rintro ⟨j, hj⟩; split at hj; cases hj; exact ⟨j, hj⟩
    · rw [h3]; simp [hm]
    · simp [hm]
    · intro _ j; split; simp; exact h5 hm j
  | readDisabled => exact ⟨h1, h2, h3, h4, h5⟩
  | casOk hp hg =>
    have hm : s.lockMode = false := by
      by_contra hm; exact h4 (by simpa using hm) i hp
    have hno : ∀ j, inside (s.pc j) = false := by
      intro j
      have hr : s.pc j ≠ .running := fun hj => by
        have := h2.2 ⟨j, hj⟩; simp [hg] at this
      have := h5 hm j
      revert hr this; cases s.pc j <;> simp [inside]
    refine ⟨?_, ?_, ?_, ?_, ?_⟩ <;> simp only [St.setPC]
    · intro a b ha hb
      have e : ∀ c, inside (if c = i then PC.running else s.pc c) = true → c = i := by
        intro c hc; by_contra hn; rw [if_neg hn, hno] at hc; cases hc
      rw [e a ha, e b hb]
    · simp only [true_iff]; exact ⟨i, by simp⟩
    · rw [h3]; simp [hm]
    · simp [hm]
    · intro _ j; split; simp; exact h5 hm j
  | casFail hp =>
    refine ⟨?_, ?_, ?_, ?_, ?_⟩ <;> simp only [St.setPC]
    · intro a b; split <;> split <;> simp [inside]; exact h1 a b
    · rw [h2]; constructor
      · rintro ⟨j, hj⟩; exact ⟨j, by rw [if_neg]; exact hj; rintro rfl; simp [hp] at hj⟩
      · rintro ⟨j, hj⟩; split at hj; cases hj; exact ⟨j, hj⟩
    · rw [h3]
      constructor <;> rintro (hm | hm)
      · exact Or.inl hm
      · right; intro j; split; rfl; exact hm j
      · exact Or.inl hm
      · right; intro j; have := hm j; split at this
        · next e => subst e; rw [hp]; rfl
        · exact this
    · intro hm j; split; simp; exact h4 hm j
    · intro hm j; split; simp; exact h5 hm j
  | lock hm hp hl =>
    have hno : ∀ j, inside (s.pc j) = false := by
      rcases h3.1 hl with h | h
      · simp [hm] at h
      · exact h
    refine ⟨?_, ?_, ?_, ?_, ?_⟩ <;> simp only [St.setPC]
    · intro a b ha hb
      have e : ∀ c, inside (if c = i then PC.locked else s.pc c) = true → c = i := by
        intro c hc; by_contra hn; rw [if_neg hn, hno] at hc; cases hc
      rw [e a ha, e b hb]
    · rw [h2]; constructor
      · rintro ⟨j, hj⟩; exact ⟨j, by rw [if_neg]; exact hj; rintro rfl; simp [hp] at hj⟩
      · rintro ⟨j, hj⟩; split at hj; cases hj; exact ⟨j, hj⟩
    · simp only [reduceCtorEq, false_iff, hm, Bool.true_eq_false, false_or]
      intro h; have := h i; simp [inside] at this
    · intro _ j; split; simp; exact h4 hm j
    · simp [hm]
  | grab hp =>
    have hm : s.lockMode = true := by
      by_contra hm; exact (h5 (by simpa using hm) i).1 hp
    refine ⟨?_, ?_, ?_, ?_, ?_⟩ <;> simp only [St.setPC]
    · intro a b ha hb
      refine h1 a b ?_ ?_
      · split at ha; next e => subst e; rw [hp]; rfl
        exact ha
      · split at hb; next e => subst e; rw [hp]; rfl
        exact hb
    · simp only [true_iff]; exact ⟨i, by simp⟩
    · rw [h3]
      simp only [hm, Bool.true_eq_false, false_or]
      constructor
      · intro h; have := h i; rw [hp] at this; cases this
      · intro h; have := h i; simp [inside] at this
    · intro _ j; split; simp; exact h4 hm j
    · simp [hm]
  | release hp =>
    have hone : ∀ j, inside (s.pc j) = true → j = i := fun j hj => h1 j i hj (by rw [hp]; rfl)
    refine ⟨?_, ?_, ?_, ?_, ?_⟩ <;> simp only [St.setPC]
    · intro a b ha hb
      have e : ∀ c, inside (if c = i then (if s.lockMode then PC.releasing else PC.idle) else s.pc c) = true → c = i := by
        intro c hc; by_contra hn; rw [if_neg hn] at hc; exact hn (hone c hc)
      rw [e a ha, e b hb]
    · simp only [Bool.false_eq_true, false_iff, not_exists]
      intro j; split
      · split <;> simp
      · next hn => intro hj; exact hn (hone j (by rw [hj]; rfl))
    · rw [h3]
      cases hm : s.lockMode
      · simp
      · simp only [Bool.true_eq_false, false_or, if_true]
        constructor
        · intro h; have := h i; rw [hp] at this; cases this
        · intro h; have := h i; simp [inside] at this
    · intro hm j; split
      · simp
      · exact h4 hm j
    · intro hm j; split
      · simp [hm]
      · exact h5 hm j
  | unlock hp =>
    have hone : ∀ j, inside (s.pc j) = true → j = i := fun j hj => h1 j i hj (by rw [hp]; rfl)
    have hm : s.lockMode = true := by
      by_contra hm; exact (h5 (by simpa using hm) i).2 hp
    refine ⟨?_, ?_, ?_, ?_, ?_⟩ <;> simp only [St.setPC]
    · intro a b ha hb
      have e : ∀ c, inside (if c = i then PC.idle else s.pc c) = true → c = i := by
        intro c hc; by_contra hn; rw [if_neg hn] at hc; exact hn (hone c hc)
      rw [e a ha, e b hb]
    · rw [h2]; constructor
      · rintro ⟨j, hj⟩
        have := hone j (by rw [hj]; rfl); subst this; rw [hp] at hj; cases hj
      · rintro ⟨j, hj⟩; split at hj; cases hj; exact ⟨j, hj⟩
    · simp only [true_iff]
      right; intro j; split
      · rfl
      · next hn => by_contra hj; exact hn (hone j (by simpa using hj))
    · intro _ j; split; simp; exact h4 hm j
    · simp [hm]
  | disable hp => exact ⟨h1, h2, h3, h4, h5⟩

theorem Reach.inv {m s} (h : Reach m s) : Inv s := by
  induction h with
  | init => exact Inv.init m
  | step _ st ih => exact ih.step st

theorem Reach.mode {m s} (h : Reach m s) : s.lockMode = m := by
  induction h with
  | init => rfl
  | step _ st ih => cases st <;> exact ih

end Jungle.Sema
