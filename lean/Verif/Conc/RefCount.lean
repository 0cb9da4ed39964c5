/-
  Model of the life time of a log file: `LogFileInfo` (src/log_manifest.h:77-193) and
  `LogManifest::removeLogFile` (src/log_manifest.cc:826-846).  Any number of holders, every
  interleaving of their atomic steps.
-/
import Mathlib.Order.Nat

namespace Jungle.RefCount

/-- Where a holder of the file is. -/
inductive PC
  | out
  /-- after `grab` -/
  | hold
  /-- a holder that has set `removed` and has not yet taken the file out of the lists -/
  | remover
  /-- `done`: `removed` was read as false (log_manifest.h:132), `fetch_sub` comes next (191) -/
  | dF
  /-- `done`: `removed` was read as true, the load of `snapCount` comes next (141) -/
  | dT
  /-- `snapCount` was read, `fetch_sub` comes next (142) -/
  | dT2 (snap : Nat)
  /-- after `grabForSnapshot` -/
  | snapHold
  | sF
  /-- `doneForSnapshot`: `removed` was read as true, `fetch_sub` comes next (137) -/
  | sT
  /-- `fetch_sub` returned this value, the load of `refCount` comes next (138) -/
  | sT2 (snap : Nat)
  deriving DecidableEq, Repr

def PC.isRef : PC → Bool
  | .hold | .remover | .dF | .dT | .dT2 _ => true
  | _ => false

def PC.isSnap : PC → Bool
  | .snapHold | .sF | .sT => true
  | _ => false

/-- `sT2` still uses the object (it will read `refCount`). -/
def PC.usesFile : PC → Bool
  | .out => false
  | _ => true

structure St where
  ref : Nat := 0
  snap : Nat := 0
  removed : Bool := false
  /-- still in `logFiles` and `logFilesBySeq` -/
  listed : Bool := true
  /-- how often `destroySelf` and `delete this` ran (log_manifest.h:164-166) -/
  destroyed : Nat := 0
  pcs : List PC
  deriving DecidableEq, Repr

def St.at (s : St) (i : Nat) (p : PC) : Prop := s.pcs[i]? = some p

instance (s : St) (i : Nat) (p : PC) : Decidable (s.at i p) := inferInstanceAs (Decidable (_ = _))

/-- One atomic step of holder `i`.  With `snaps = false` no snapshot holders occur (they occur
    only in log-section-only mode, src/log_mgr.cc:410-417); with `straddle = false` the removal
    does not begin while another holder is inside `done` past the check of `removed`. -/
inductive Step (snaps straddle : Bool) : St → Nat → St → Prop
  /-- lookup in the list and `grab` (log_manifest.h:77-78): the node is pinned, so the file is
      still listed when the counter is raised (`skiplist_wait_for_free` in `removeLogFile`
      waits for the pin) -/
  | grab {s i} : s.at i .out → s.listed = true →
      Step snaps straddle s i { s with ref := s.ref + 1, pcs := s.pcs.set i .hold }
  | snapGrab {s i} : snaps = true → s.at i .out → s.listed = true →
      Step snaps straddle s i { s with snap := s.snap + 1, pcs := s.pcs.set i .snapHold }
  /-- `setRemoved` (src/log_manifest.cc:836); flush and rollback exclude each other, so it runs
      once -/
  | setRemoved {s i} : s.at i .hold → s.removed = false →
      (straddle = false → PC.dF ∉ s.pcs) →
      Step snaps straddle s i { s with removed := true, pcs := s.pcs.set i .remover }
  /-- erased from both lists (src/log_manifest.cc:838-843) -/
  | unlist {s i} : s.at i .remover →
      Step snaps straddle s i { s with listed := false, pcs := s.pcs.set i .hold }
  /-- `if (removed)` (log_manifest.h:132) -/
  | doneRead {s i} : s.at i .hold →
      Step snaps straddle s i { s with pcs := s.pcs.set i (if s.removed then .dT else .dF) }
  /-- `refCount.fetch_sub(1)` (log_manifest.h:191) -/
  | doneF {s i} : s.at i .dF →
      Step snaps straddle s i { s with ref := s.ref - 1, pcs := s.pcs.set i .out }
  | doneSnapLoad {s i} : s.at i .dT →
      Step snaps straddle s i { s with pcs := s.pcs.set i (.dT2 s.snap) }
  /-- `fetch_sub` and, if both counters say so, the destruction (log_manifest.h:142-166) -/
  | doneT {s i c} : s.at i (.dT2 c) →
      Step snaps straddle s i { s with
          ref := s.ref - 1,
          destroyed := if c = 0 ∧ s.ref = 1 then s.destroyed + 1 else s.destroyed,
          pcs := s.pcs.set i .out }
  | snapRead {s i} : s.at i .snapHold →
      Step snaps straddle s i { s with pcs := s.pcs.set i (if s.removed then .sT else .sF) }
  | snapF {s i} : s.at i .sF →
      Step snaps straddle s i { s with snap := s.snap - 1, pcs := s.pcs.set i .out }
  | snapSub {s i} : s.at i .sT →
      Step snaps straddle s i { s with snap := s.snap - 1, pcs := s.pcs.set i (.sT2 s.snap) }
  | snapT {s i c} : s.at i (.sT2 c) →
      Step snaps straddle s i { s with
          destroyed := if c = 1 ∧ s.ref = 0 then s.destroyed + 1 else s.destroyed,
          pcs := s.pcs.set i .out }

/-- All executions with `n` potential holders, from a listed file nobody holds. -/
inductive Reach (snaps straddle : Bool) (n : Nat) : St → Prop
  | init : Reach snaps straddle n { pcs := List.replicate n .out }
  | step {s i s'} : Reach snaps straddle n s → Step snaps straddle s i s' → Reach snaps straddle n s'

theorem countP_set' (p : PC → Bool) {l : List PC} {i : Nat} {a b : PC} (h : l[i]? = some a) :
    (l.set i b).countP p + (if p a then 1 else 0) = l.countP p + (if p b then 1 else 0) := by
  obtain ⟨hi, e⟩ := List.getElem?_eq_some_iff.1 h
  rw [List.countP_set hi, e]
  have : (if p a = true then 1 else 0) ≤ l.countP p := by
    split
    · next hp => exact List.countP_pos_iff.2 ⟨a, List.mem_of_getElem? h, hp⟩
    · omega
  omega

def isRemover : PC → Bool
  | .remover => true
  | _ => false

/-- Invariant of the executions without snapshot holders. -/
structure Inv (straddle : Bool) (s : St) : Prop where
  ref : s.ref = s.pcs.countP PC.isRef
  snap : s.snap = 0
  noSnap : ∀ p ∈ s.pcs, p.isSnap = false ∧ ∀ c, p ≠ .sT2 c
  saw : ∀ c, PC.dT2 c ∈ s.pcs → c = 0
  sawRem : ∀ p ∈ s.pcs, p = .remover ∨ p = .dT ∨ (∃ c, p = .dT2 c) → s.removed = true
  rem : s.removed = true → s.listed = true → 0 < s.pcs.countP isRemover
  dest : s.destroyed = 0 ∨ (s.destroyed = 1 ∧ s.ref = 0 ∧ s.listed = false)
  live : straddle = false → s.removed = true → PC.dF ∉ s.pcs ∧ (s.destroyed = 0 → 0 < s.ref)

theorem remover_le (l : List PC) : l.countP isRemover ≤ l.countP PC.isRef := by
  apply List.countP_mono_left
  intro x _ hx; cases x <;> simp_all [isRemover, PC.isRef]

theorem mem_set {l : List PC} {i : Nat} {b x : PC} (h : x ∈ l.set i b) : x = b ∨ x ∈ l := by
  rcases List.mem_or_eq_of_mem_set h with h | h
  · exact Or.inr h
  · exact Or.inl h

theorem Inv.init (straddle : Bool) (n : Nat) : Inv straddle { pcs := List.replicate n .out } := by
  refine ⟨?_, rfl, ?_, ?_, ?_, ?_, Or.inl rfl, ?_⟩
  · simp [List.countP_replicate, PC.isRef]
  · intro p hp; rw [(List.mem_replicate.1 hp).2]; exact ⟨rfl, by simp⟩
  · intro c hc; have := (List.mem_replicate.1 hc).2; cases this
  · intro p hp; rw [(List.mem_replicate.1 hp).2]; simp
  · intro h; cases h
  · intro _ h; cases h

theorem Inv.step {straddle s i s'} (h : Inv straddle s) (st : Step false straddle s i s') :
    Inv straddle s' := by
  obtain ⟨h1, h2, h3, h4, h8, h5, h6, h7⟩ := h
  have hle := remover_le s.pcs
  cases st with
  | grab ha hl =>
    have e1 := countP_set' PC.isRef (b := .hold) ha
    have e2 := countP_set' isRemover (b := .hold) ha
    simp only [PC.isRef, isRemover, if_true, Bool.false_eq_true, if_false] at e1 e2
    refine ⟨by simp only []; omega, h2, ?_, ?_, ?_, ?_, ?_, ?_⟩
    · intro p hp; rcases mem_set hp with rfl | hp; exact ⟨rfl, by simp⟩; exact h3 p hp
    · intro c hc; rcases mem_set hc with hc | hc; cases hc; exact h4 c hc
    · intro p hp hq; rcases mem_set hp with rfl | hp; simp at hq; exact h8 p hp hq
    · intro hr hl; have := h5 hr hl; simp only []; omega
    · rcases h6 with h6 | h6
      · exact Or.inl h6
      · rw [hl] at h6; simp at h6
    · intro hs hr; obtain ⟨a, b⟩ := h7 hs hr
      refine ⟨fun hm => ?_, fun _ => by simp⟩
      rcases mem_set hm with hm | hm; cases hm; exact a hm
  | snapGrab hs => cases hs
  | setRemoved ha hr hst =>
    have e1 := countP_set' PC.isRef (b := .remover) ha
    have e2 := countP_set' isRemover (b := .remover) ha
    simp only [PC.isRef, isRemover, if_true, Bool.false_eq_true, if_false] at e1 e2
    refine ⟨by simp only []; omega, h2, ?_, ?_, ?_, ?_, ?_, ?_⟩
    · intro p hp; rcases mem_set hp with rfl | hp; exact ⟨rfl, by simp⟩; exact h3 p hp
    · intro c hc; rcases mem_set hc with hc | hc; cases hc; exact h4 c hc
    · intro p hp hq; rfl
    · intro _ _; simp only []; omega
    · exact h6
    · intro hs _
      refine ⟨fun hm => ?_, fun _ => ?_⟩
      · rcases mem_set hm with hm | hm; cases hm; exact hst hs hm
      · have : 0 < s.pcs.countP PC.isRef :=
          List.countP_pos_iff.2 ⟨_, List.mem_of_getElem? ha, rfl⟩
        simp only []; omega
  | unlist ha =>
    have e1 := countP_set' PC.isRef (b := .hold) ha
    have e2 := countP_set' isRemover (b := .hold) ha
    simp only [PC.isRef, isRemover, if_true, Bool.false_eq_true, if_false] at e1 e2
    refine ⟨by simp only []; omega, h2, ?_, ?_, ?_, ?_, ?_, ?_⟩
    · intro p hp; rcases mem_set hp with rfl | hp; exact ⟨rfl, by simp⟩; exact h3 p hp
    · intro c hc; rcases mem_set hc with hc | hc; cases hc; exact h4 c hc
    · intro p hp hq; rcases mem_set hp with rfl | hp; simp at hq; exact h8 p hp hq
    · intro _ hl; cases hl
    · rcases h6 with h6 | h6
      · exact Or.inl h6
      · exact Or.inr ⟨h6.1, h6.2.1, rfl⟩
    · intro hs hr; obtain ⟨a, b⟩ := h7 hs hr
      refine ⟨fun hm => ?_, b⟩
      rcases mem_set hm with hm | hm; cases hm; exact a hm
  | doneRead ha =>
    have e1 := countP_set' PC.isRef (b := if s.removed then .dT else .dF) ha
    have e2 := countP_set' isRemover (b := if s.removed then .dT else .dF) ha
    have hb1 : PC.isRef (if s.removed then .dT else .dF) = true := by split <;> rfl
    have hb2 : isRemover (if s.removed then .dT else .dF) = false := by split <;> rfl
    rw [hb1] at e1; rw [hb2] at e2
    simp only [PC.isRef, isRemover, if_true, Bool.false_eq_true, if_false] at e1 e2
    refine ⟨by simp only []; omega, h2, ?_, ?_, ?_, ?_, h6, ?_⟩
    · intro p hp; rcases mem_set hp with rfl | hp
      · split <;> exact ⟨rfl, by simp⟩
      · exact h3 p hp
    · intro c hc; rcases mem_set hc with hc | hc
      · split at hc <;> cases hc
      · exact h4 c hc
    · intro p hp hq; rcases mem_set hp with rfl | hp
      · simp only; cases hr : s.removed
        · rw [hr] at hq; simp at hq
        · rfl
      · exact h8 p hp hq
    · intro hr hl; have := h5 hr hl; simp only []; omega
    · intro hs hr; obtain ⟨a, b⟩ := h7 hs hr
      refine ⟨fun hm => ?_, b⟩
      rcases mem_set hm with hm | hm
      · simp only at hr; rw [hr] at hm; cases hm
      · exact a hm
  | doneF ha =>
    have e1 := countP_set' PC.isRef (b := .out) ha
    have e2 := countP_set' isRemover (b := .out) ha
    simp only [PC.isRef, isRemover, if_true, Bool.false_eq_true, if_false] at e1 e2
    refine ⟨by simp only []; omega, h2, ?_, ?_, ?_, ?_, ?_, ?_⟩
    · intro p hp; rcases mem_set hp with rfl | hp; exact ⟨rfl, by simp⟩; exact h3 p hp
    · intro c hc; rcases mem_set hc with hc | hc; cases hc; exact h4 c hc
    · intro p hp hq; rcases mem_set hp with rfl | hp; simp at hq; exact h8 p hp hq
    · intro hr hl; have := h5 hr hl; simp only []; omega
    · rcases h6 with h6 | h6
      · exact Or.inl h6
      · omega
    · intro hs hr; exact absurd (List.mem_of_getElem? ha) (h7 hs hr).1
  | doneSnapLoad ha =>
    have e1 := countP_set' PC.isRef (b := .dT2 s.snap) ha
    have e2 := countP_set' isRemover (b := .dT2 s.snap) ha
    simp only [PC.isRef, isRemover, if_true, Bool.false_eq_true, if_false] at e1 e2
    refine ⟨by simp only []; omega, h2, ?_, ?_, ?_, ?_, h6, ?_⟩
    · intro p hp; rcases mem_set hp with rfl | hp; exact ⟨rfl, by simp⟩; exact h3 p hp
    · intro c hc; rcases mem_set hc with hc | hc; cases hc; exact h2; exact h4 c hc
    · intro p hp hq; exact h8 _ (List.mem_of_getElem? ha) (Or.inr (Or.inl rfl))
    · intro hr hl; have := h5 hr hl; simp only []; omega
    · intro hs hr; obtain ⟨a, b⟩ := h7 hs hr
      refine ⟨fun hm => ?_, b⟩
      rcases mem_set hm with hm | hm; cases hm; exact a hm
  | doneT ha =>
    rename_i c
    have e1 := countP_set' PC.isRef (b := .out) ha
    have e2 := countP_set' isRemover (b := .out) ha
    simp only [PC.isRef, isRemover, if_true, Bool.false_eq_true, if_false] at e1 e2
    have hc := h4 c (List.mem_of_getElem? ha)
    subst hc
    have hle' := remover_le (s.pcs.set i .out)
    refine ⟨by simp only []; omega, h2, ?_, ?_, ?_, ?_, ?_, ?_⟩
    · intro p hp; rcases mem_set hp with rfl | hp; exact ⟨rfl, by simp⟩; exact h3 p hp
    · intro c hc; rcases mem_set hc with hc | hc; cases hc; exact h4 c hc
    · intro p hp hq; rcases mem_set hp with rfl | hp; simp at hq; exact h8 p hp hq
    · intro hr hl; have := h5 hr hl; simp only []; omega
    · rcases h6 with h6 | h6
      · by_cases hr : s.ref = 1
        · right
          refine ⟨by simp [hr, h6], by simp [hr], ?_⟩
          by_contra hl
          have := h5 (h8 _ (List.mem_of_getElem? ha) (Or.inr (Or.inr ⟨_, rfl⟩))) (by simpa using hl)
          omega
        · left; simp [hr, h6]
      · omega
    · intro hs hr; obtain ⟨a, b⟩ := h7 hs hr
      refine ⟨fun hm => ?_, ?_⟩
      · rcases mem_set hm with hm | hm; cases hm; exact a hm
      · simp only []
        intro hd
        by_cases hr1 : s.ref = 1
        · rw [if_pos ⟨trivial, hr1⟩] at hd; omega
        · rw [if_neg (by simp [hr1])] at hd; have := b hd; omega
  | snapRead ha => have := (h3 _ (List.mem_of_getElem? ha)).1; cases this
  | snapF ha => have := (h3 _ (List.mem_of_getElem? ha)).1; cases this
  | snapSub ha => have := (h3 _ (List.mem_of_getElem? ha)).1; cases this
  | snapT ha => exact absurd rfl ((h3 _ (List.mem_of_getElem? ha)).2 _)

theorem Reach.inv {straddle n s} (h : Reach false straddle n s) : Inv straddle s := by
  induction h with
  | init => exact Inv.init straddle n
  | step _ st ih => exact ih.step st

/-! ### Whole calls, one after the other -/

/-- The counters of one file when every call runs without interruption. -/
structure Seq where
  ref : Nat := 0
  snap : Nat := 0
  removed : Bool := false
  destroyed : Nat := 0
  deriving DecidableEq, Repr

/-- `grab` (log_manifest.h:77-78) -/
def Seq.grab (s : Seq) : Seq := { s with ref := s.ref + 1 }
/-- `grabForSnapshot` (log_manifest.h:111-113) -/
def Seq.grabSnap (s : Seq) : Seq := { s with snap := s.snap + 1 }
/-- `removeLogFile` (src/log_manifest.cc:826-846) -/
def Seq.remove (s : Seq) : Seq := { s with removed := true }
/-- `doneInternal(false)` (log_manifest.h:123-193) -/
def Seq.done (s : Seq) : Seq :=
  { s with
    ref := s.ref - 1
    destroyed := if s.removed ∧ s.snap = 0 ∧ s.ref = 1 then s.destroyed + 1 else s.destroyed }
/-- `doneInternal(true)` -/
def Seq.doneSnap (s : Seq) : Seq :=
  { s with
    snap := s.snap - 1
    destroyed := if s.removed ∧ s.snap = 1 ∧ s.ref = 0 then s.destroyed + 1 else s.destroyed }

/-- Histories of whole calls: the file is looked up only while it is listed, it is removed by a
    caller that holds it, and only holders give back. -/
inductive SeqReach : Seq → Prop
  | init : SeqReach {}
  | grab {s} : SeqReach s → s.removed = false → SeqReach s.grab
  | grabSnap {s} : SeqReach s → s.removed = false → SeqReach s.grabSnap
  | remove {s} : SeqReach s → s.removed = false → 0 < s.ref → SeqReach s.remove
  | done {s} : SeqReach s → 0 < s.ref → SeqReach s.done
  | doneSnap {s} : SeqReach s → 0 < s.snap → SeqReach s.doneSnap

theorem SeqReach.inv {s} (h : SeqReach s) :
    s.destroyed = if s.removed = true ∧ s.ref = 0 ∧ s.snap = 0 then 1 else 0 := by
  induction h with
  | init => rfl
  | grab _ hr ih => simp [Seq.grab, hr] at ih ⊢; exact ih
  | grabSnap _ hr ih => simp [Seq.grabSnap, hr] at ih ⊢; exact ih
  | remove _ hr hp ih => simp [Seq.remove, hr] at ih ⊢; rw [ih, if_neg]; omega
  | @done s _ hp ih =>
    cases hr : s.removed
    · simp [Seq.done, hr] at ih ⊢; exact ih
    · simp only [Seq.done, hr, true_and] at ih ⊢
      rw [if_neg (by omega)] at ih
      by_cases hc : s.snap = 0 ∧ s.ref = 1
      · rw [if_pos hc, if_pos (by omega), ih]
      · rw [if_neg hc, if_neg (by omega), ih]
  | @doneSnap s _ hp ih =>
    cases hr : s.removed
    · simp [Seq.doneSnap, hr] at ih ⊢; exact ih
    · simp only [Seq.doneSnap, hr, true_and] at ih ⊢
      rw [if_neg (by omega)] at ih
      by_cases hc : s.snap = 1 ∧ s.ref = 0
      · rw [if_pos hc, if_pos (by omega), ih]
      · rw [if_neg hc, if_neg (by omega), ih]

end Jungle.RefCount
