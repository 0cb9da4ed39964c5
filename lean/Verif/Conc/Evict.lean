/-
  Model of loading and purging the memory table of a log file in log-section-only mode:
  `LogFileInfo::grab`, `doneInternal`, `setEvicted` (src/log_manifest.h:77-109, 178-209).
  Any number of users, every interleaving of their atomic steps.
-/
import Verif.Conc.RefCount

namespace Jungle.Evict

/-- Where a user of the file is; the flag is `load_memtable_if_needed`. -/
inductive PC
  | out
  /-- `refCount` was raised, `evictionLock` comes next (log_manifest.h:78, 102) -/
  | g1 (load : Bool)
  /-- in `grab` with the lock (103-108) -/
  | g2 (load : Bool)
  /-- uses the memory table -/
  | hold (load : Bool)
  /-- `done`: `evicted` was read as true, `fetch_sub` comes next (178-179) -/
  | dE
  /-- `done`: `evicted` was read as false, `fetch_sub` comes next (178, 200) -/
  | dN
  /-- `fetch_sub` returned 1, `evictionLock` comes next (180-181) -/
  | p1
  /-- with the lock, the load of `refCount` comes next (184) -/
  | p2
  /-- the count was 0, the purge comes next (185-186) -/
  | p3
  deriving DecidableEq, Repr

/-- counted in `refCount` -/
def PC.isRef : PC → Bool
  | .g1 _ | .g2 _ | .hold _ | .dE | .dN => true
  | _ => false

/-- owns `evictionLock` -/
def PC.inLock : PC → Bool
  | .g2 _ | .p2 | .p3 => true
  | _ => false

/-- has got past the lock in `grab` -/
def PC.past : PC → Bool
  | .g2 _ | .hold _ | .dE | .dN => true
  | _ => false

def PC.isP3 : PC → Bool
  | .p3 => true
  | _ => false

/-- uses the memory table after `grab(true)` -/
def PC.user : PC → Bool
  | .hold true => true
  | _ => false

structure St where
  ref : Nat := 0
  evicted : Bool := false
  /-- `LogFile::memtablePurged` -/
  purged : Bool := false
  lock : Bool := false
  pcs : List PC
  deriving DecidableEq, Repr

def St.at (s : St) (i : Nat) (p : PC) : Prop := s.pcs[i]? = some p

/-- One atomic step of user `i`.  The body of a critical section is split at the reads and
    writes another user can observe; the unlock is joined with the last of them.  Loading is
    taken to succeed (`grab` ignores the result of `loadMemTable`). -/
inductive Step : St → Nat → St → Prop
  | grab {s i} (load : Bool) : s.at i .out →
      Step s i { s with ref := s.ref + 1, pcs := s.pcs.set i (.g1 load) }
  | grabLock {s i b} : s.at i (.g1 b) → s.lock = false →
      Step s i { s with lock := true, pcs := s.pcs.set i (.g2 b) }
  /-- the table is purged and wanted: load it (103-108) -/
  | grabLoad {s i b} : s.at i (.g2 b) → b = true → s.purged = true →
      Step s i { s with lock := false, purged := false, evicted := false, pcs := s.pcs.set i (.hold b) }
  | grabKeep {s i b} : s.at i (.g2 b) → (b = false ∨ s.purged = false) →
      Step s i { s with lock := false, pcs := s.pcs.set i (.hold b) }
  /-- `setEvicted`, called by the reclaimer, which holds the file (204-207) -/
  | setEvicted {s i b} : s.at i (.hold b) → s.lock = false → Step s i { s with evicted := true }
  | doneRead {s i b} : s.at i (.hold b) →
      Step s i { s with pcs := s.pcs.set i (if s.evicted then .dE else .dN) }
  | doneN {s i} : s.at i .dN → Step s i { s with ref := s.ref - 1, pcs := s.pcs.set i .out }
  | doneE {s i} : s.at i .dE →
      Step s i { s with ref := s.ref - 1, pcs := s.pcs.set i (if s.ref = 1 then .p1 else .out) }
  | purgeLock {s i} : s.at i .p1 → s.lock = false →
      Step s i { s with lock := true, pcs := s.pcs.set i .p2 }
  | purgeYes {s i} : s.at i .p2 → s.ref = 0 → s.purged = false →
      Step s i { s with pcs := s.pcs.set i .p3 }
  | purgeNo {s i} : s.at i .p2 → (s.ref ≠ 0 ∨ s.purged = true) →
      Step s i { s with lock := false, pcs := s.pcs.set i .out }
  | purge {s i} : s.at i .p3 →
      Step s i { s with lock := false, purged := true, pcs := s.pcs.set i .out }

/-- Executions from a file that is loaded, or (after opening) not. -/
inductive Reach (n : Nat) : St → Prop
  | init (b : Bool) : Reach n { evicted := b, purged := b, pcs := List.replicate n .out }
  | step {s i s'} : Reach n s → Step s i s' → Reach n s'

structure Inv (s : St) : Prop where
  ref : s.ref = s.pcs.countP PC.isRef
  lock : s.pcs.countP PC.inLock = if s.lock then 1 else 0
  p3 : 0 < s.pcs.countP PC.isP3 → s.pcs.countP PC.past = 0
  user : 0 < s.pcs.countP PC.user → s.purged = false

theorem countP_set' (p : PC → Bool) {l : List PC} {i : Nat} {a b : PC} (h : l[i]? = some a) :
    (l.set i b).countP p + (if p a then 1 else 0) = l.countP p + (if p b then 1 else 0) := by
  obtain ⟨hi, e⟩ := List.getElem?_eq_some_iff.1 h
  rw [List.countP_set hi, e]
  have : (if p a = true then 1 else 0) ≤ l.countP p := by
    split
    · next hp => exact List.countP_pos_iff.2 ⟨a, List.mem_of_getElem? h, hp⟩
    · omega
  omega

theorem counts (l : List PC) : l.countP PC.user ≤ l.countP PC.past ∧
    l.countP PC.past ≤ l.countP PC.isRef ∧ l.countP PC.isP3 ≤ l.countP PC.inLock := by
  refine ⟨?_, ?_, ?_⟩ <;> apply List.countP_mono_left <;> intro x _ hx
  · cases x <;> simp_all [PC.user, PC.past]
  · cases x <;> simp_all [PC.isRef, PC.past]
  · cases x <;> simp_all [PC.inLock, PC.isP3]

theorem Inv.init (b : Bool) (n : Nat) : Inv { evicted := b, purged := b, pcs := List.replicate n .out } := by
  constructor <;> simp [List.countP_replicate, PC.isRef, PC.inLock, PC.isP3, PC.user]

theorem Inv.step {s i s'} (h : Inv s) (st : Step s i s') : Inv s' := by
  obtain ⟨h1, h2, h3, h4⟩ := h
  obtain ⟨c1, c2, c3⟩ := counts s.pcs
  have key : ∀ {a : PC} (b : PC), s.at i a →
      (s.pcs.set i b).countP PC.isRef + (if a.isRef then 1 else 0) = s.pcs.countP PC.isRef + (if b.isRef then 1 else 0) ∧
      (s.pcs.set i b).countP PC.inLock + (if a.inLock then 1 else 0) = s.pcs.countP PC.inLock + (if b.inLock then 1 else 0) ∧
      (s.pcs.set i b).countP PC.past + (if a.past then 1 else 0) = s.pcs.countP PC.past + (if b.past then 1 else 0) ∧
      (s.pcs.set i b).countP PC.isP3 + (if a.isP3 then 1 else 0) = s.pcs.countP PC.isP3 + (if b.isP3 then 1 else 0) ∧
      (s.pcs.set i b).countP PC.user + (if a.user then 1 else 0) = s.pcs.countP PC.user + (if b.user then 1 else 0) :=
    fun b ha => ⟨countP_set' _ ha, countP_set' _ ha, countP_set' _ ha, countP_set' _ ha, countP_set' _ ha⟩
  cases st with
  | grab load ha =>
    have k := key (.g1 load) ha
    simp only [PC.isRef, PC.inLock, PC.past, PC.isP3, PC.user, if_true, Bool.false_eq_true, if_false] at k
    refine ⟨by simp only []; omega, by simp only []; omega, by simp only []; omega, ?_⟩
    intro hu; exact h4 (by simp only [] at hu; omega)
  | grabLock ha hl =>
    rename_i b
    have k := key (.g2 b) ha
    simp only [PC.isRef, PC.inLock, PC.past, PC.isP3, PC.user, if_true, Bool.false_eq_true, if_false] at k
    rw [hl] at h2; simp only [Bool.false_eq_true, if_false] at h2
    refine ⟨by simp only []; omega, by simp only [if_true]; omega, by simp only []; omega, ?_⟩
    intro hu; exact h4 (by simp only [] at hu; omega)
  | grabLoad ha hb hp =>
    rename_i b
    subst hb
    have k := key (.hold true) ha
    simp only [PC.isRef, PC.inLock, PC.past, PC.isP3, PC.user, if_true, Bool.false_eq_true, if_false] at k
    have : 0 < s.pcs.countP PC.past := List.countP_pos_iff.2 ⟨_, List.mem_of_getElem? ha, rfl⟩
    refine ⟨by simp only []; omega, ?_, by simp only []; omega, fun _ => rfl⟩
    simp only [Bool.false_eq_true, if_false]; split at h2 <;> omega
  | grabKeep ha hp =>
    rename_i b
    have k := key (.hold b) ha
    simp only [PC.isRef, PC.inLock, PC.past, PC.isP3, if_true, Bool.false_eq_true, if_false] at k
    refine ⟨by simp only []; omega, ?_, by simp only []; omega, ?_⟩
    · simp only [Bool.false_eq_true, if_false]; split at h2 <;> omega
    · intro hu
      rcases hp with rfl | hp
      · simp only [PC.user, Bool.false_eq_true, if_false] at k
        exact h4 (by simp only [] at hu; omega)
      · exact hp
  | setEvicted ha hl => exact ⟨h1, h2, h3, h4⟩
  | doneRead ha =>
    rename_i b
    generalize hq : (if s.evicted = true then PC.dE else PC.dN) = q
    have k := key q ha
    have hq' : q.isRef = true ∧ q.inLock = false ∧ q.past = true ∧ q.isP3 = false ∧ q.user = false := by
      rw [← hq]; split <;> simp [PC.isRef, PC.inLock, PC.past, PC.isP3, PC.user]
    obtain ⟨q1, q2, q3, q4, q5⟩ := hq'
    rw [q1, q2, q3, q4, q5] at k
    simp only [PC.isRef, PC.inLock, PC.past, PC.isP3, if_true, Bool.false_eq_true, if_false] at k
    refine ⟨by simp only []; omega, by simp only []; omega, by simp only []; omega, ?_⟩
    intro hu; refine h4 ?_; simp only [] at hu; omega
  | doneN ha =>
    have k := key .out ha
    simp only [PC.isRef, PC.inLock, PC.past, PC.isP3, PC.user, if_true, Bool.false_eq_true, if_false] at k
    refine ⟨by simp only []; omega, by simp only []; omega, by simp only []; omega, ?_⟩
    intro hu; exact h4 (by simp only [] at hu; omega)
  | doneE ha =>
    generalize hq : (if s.ref = 1 then PC.p1 else PC.out) = q
    have k := key q ha
    have hq' : q.isRef = false ∧ q.inLock = false ∧ q.past = false ∧ q.isP3 = false ∧ q.user = false := by
      rw [← hq]; split <;> simp [PC.isRef, PC.inLock, PC.past, PC.isP3, PC.user]
    obtain ⟨q1, q2, q3, q4, q5⟩ := hq'
    rw [q1, q2, q3, q4, q5] at k
    simp only [PC.isRef, PC.inLock, PC.past, PC.isP3, PC.user, if_true, Bool.false_eq_true, if_false] at k
    refine ⟨by simp only []; omega, by simp only []; omega, by simp only []; omega, ?_⟩
    intro hu; exact h4 (by simp only [] at hu; omega)
  | purgeLock ha hl =>
    have k := key .p2 ha
    simp only [PC.isRef, PC.inLock, PC.past, PC.isP3, PC.user, if_true, Bool.false_eq_true, if_false] at k
    rw [hl] at h2; simp only [Bool.false_eq_true, if_false] at h2
    refine ⟨by simp only []; omega, by simp only [if_true]; omega, by simp only []; omega, ?_⟩
    intro hu; exact h4 (by simp only [] at hu; omega)
  | purgeYes ha hr hp =>
    have k := key .p3 ha
    simp only [PC.isRef, PC.inLock, PC.past, PC.isP3, PC.user, if_true, Bool.false_eq_true, if_false] at k
    refine ⟨by simp only []; omega, by simp only []; omega, by simp only []; omega, fun _ => hp⟩
  | purgeNo ha hr =>
    have k := key .out ha
    simp only [PC.isRef, PC.inLock, PC.past, PC.isP3, PC.user, if_true, Bool.false_eq_true, if_false] at k
    refine ⟨by simp only []; omega, ?_, by simp only []; omega, ?_⟩
    · simp only [Bool.false_eq_true, if_false]; split at h2 <;> omega
    · intro hu; exact h4 (by simp only [] at hu; omega)
  | purge ha =>
    have k := key .out ha
    simp only [PC.isRef, PC.inLock, PC.past, PC.isP3, PC.user, if_true, Bool.false_eq_true, if_false] at k
    have : 0 < s.pcs.countP PC.isP3 := List.countP_pos_iff.2 ⟨_, List.mem_of_getElem? ha, rfl⟩
    refine ⟨by simp only []; omega, ?_, by simp only []; omega, ?_⟩
    · simp only [Bool.false_eq_true, if_false]; split at h2 <;> omega
    · intro hu; simp only [] at hu; omega

theorem Reach.inv {n s} (h : Reach n s) : Inv s := by
  induction h with
  | init b => exact Inv.init b n
  | step _ st ih => exact ih.step st

end Jungle.Evict
