/-
  Short programs of API calls over the table section with checkpoints, run to get concrete reachable
  states and snapshots for examples and counterexamples.
-/
import Verif.DB.Snap

namespace Jungle
open Spec
variable {K : Type} [LinearOrder K] [OrderBot K] {c : TCfg K} {parts : Nat} {hp : 0 < parts} {keep : Nat}

/-- Calls on the parent database. -/
inductive SCmd (K : Type)
  /-- `set`; `true`: the log file is full and a new one is started -/
  | put (k : K) (v : UInt8) (se : Bool := false)
  | rm (k : K)
  | sync
  | flush
  | checkpoint

def SCmd.write (s : DB K (LsmC c parts hp keep) × List (Rec K)) (r : Rec K) (se : Bool) :
    Option (DB K (LsmC c parts hp keep) × List (Rec K)) :=
  if s.1.getMaxSeqNum.getD 0 + 1 < NIL ∧ s.1.log.maxNum + 1 < NIL ∧
      (s.1.getMaxSeqNum.isNone = true → se = false) ∧ r.seq = NIL ∧ (s.1.setRecord r se).1 = .ok then
    some ((s.1.setRecord r se).2, s.2 ++ number (s.1.getMaxSeqNum.getD 0) [r])
  else none

def SCmd.exec (s : DB K (LsmC c parts hp keep) × List (Rec K)) : SCmd K →
    Option (DB K (LsmC c parts hp keep) × List (Rec K))
  | .put k v se => SCmd.write s { seq := NIL, type := .insertion, key := k, val := [v] } se
  | .rm k => SCmd.write s { seq := NIL, type := .deletion, key := k } false
  | .sync => some (s.1.sync.2, s.2)
  | .flush => some ((s.1.flushLogs {} NIL).2, s.2)
  | .checkpoint => if s.1.checkpoint.1 = .ok then some (s.1.checkpoint.2.1, s.2) else none

theorem SCmd.exec_act {s s' : DB K (LsmC c parts hp keep) × List (Rec K)} {x : SCmd K}
    (he : SCmd.exec s x = some s') : Act s.1 s.2 s'.1 s'.2 := by
  have hw : ∀ r se, SCmd.write s r se = some s' → Act s.1 s.2 s'.1 s'.2 := by
    intro r se he
    unfold SCmd.write at he
    split at he
    · next hc =>
      obtain ⟨h1, h2, h3, h4, h5⟩ := hc
      cases he
      exact Act.set r se ⟨h1, h2⟩ (Or.inl h4) (fun hn => h3 (by rw [hn]; rfl)) (Prod.ext h5 rfl)
    · cases he
  cases x with
  | put k v se => exact hw _ _ he
  | rm k => exact hw _ _ he
  | sync => cases he; exact Act.sync rfl
  | flush => cases he; exact Act.flush {} NIL rfl (Or.inl rfl) rfl
  | checkpoint =>
    by_cases hc : s.1.checkpoint.1 = .ok
    · rw [show SCmd.exec s .checkpoint = _ from if_pos hc] at he
      cases he
      exact Act.checkpoint (Prod.ext hc rfl)
    · rw [show SCmd.exec s .checkpoint = _ from if_neg hc] at he; cases he

/-- Calls on the parent and maintenance of its tables. -/
inductive MCmd (K : Type)
  | call (x : SCmd K)
  /-- the two halves of a level-0 compaction of a partition -/
  | l0Begin (p : Nat)
  | l0End (p : Nat)

def MCmd.exec (s : DB K (LsmC c parts hp keep) × List (Rec K)) : MCmd K →
    Option (DB K (LsmC c parts hp keep) × List (Rec K))
  | .call x => SCmd.exec s x
  | .l0Begin p => if p < (CMgr.tab (s.1.table : CMgr K)).parts then
      some ({ s.1 with table := (⟨TMgr.compactL0Begin (CMgr.tab s.1.table) p, CMgr.marks s.1.table⟩ : CMgr K) }, s.2)
    else none
  | .l0End p => if p < (CMgr.tab (s.1.table : CMgr K)).parts then
      some ({ s.1 with table := (⟨TMgr.compactL0End c (CMgr.tab s.1.table) p (fun _ => false),
        CMgr.marks s.1.table⟩ : CMgr K) }, s.2)
    else none

def MCmd.run (s : DB K (LsmC c parts hp keep) × List (Rec K)) : List (MCmd K) →
    Option (DB K (LsmC c parts hp keep) × List (Rec K))
  | [] => some s
  | x :: xs => match MCmd.exec s x with
    | none => none
    | some s' => MCmd.run s' xs

theorem MCmd.exec_reach {s s' : DB K (LsmC c parts hp keep) × List (Rec K)} {x : MCmd K}
    (h : ∃ cs n, PReach ⟨s.1, cs⟩ s.2 n) (he : MCmd.exec s x = some s') : ∃ cs n, PReach ⟨s'.1, cs⟩ s'.2 n := by
  obtain ⟨cs, n, h⟩ := h
  cases x with
  | call x => exact (SCmd.exec_act he).preach h
  | l0Begin p =>
    by_cases hc : p < (CMgr.tab (s.1.table : CMgr K)).parts
    · rw [show MCmd.exec s (.l0Begin p) = _ from if_pos hc] at he
      cases he; exact ⟨_, _, PReach.maint h (CMgr.Maint.l0Begin _ p hc)⟩
    · rw [show MCmd.exec s (.l0Begin p) = _ from if_neg hc] at he; cases he
  | l0End p =>
    by_cases hc : p < (CMgr.tab (s.1.table : CMgr K)).parts
    · rw [show MCmd.exec s (.l0End p) = _ from if_pos hc] at he
      cases he; exact ⟨_, _, PReach.maint h (CMgr.Maint.l0End _ p _ hc)⟩
    · rw [show MCmd.exec s (.l0End p) = _ from if_neg hc] at he; cases he

theorem MCmd.run_reach : ∀ {xs : List (MCmd K)} {s s' : DB K (LsmC c parts hp keep) × List (Rec K)},
    (∃ cs n, PReach ⟨s.1, cs⟩ s.2 n) → MCmd.run s xs = some s' → ∃ cs n, PReach ⟨s'.1, cs⟩ s'.2 n := by
  intro xs
  induction xs with
  | nil => intro s s' h he; cases he; exact h
  | cons x xs ih =>
    intro s s' h he
    unfold MCmd.run at he
    cases hx : MCmd.exec s x with
    | none => rw [hx] at he; cases he
    | some s1 => rw [hx] at he; exact ih (MCmd.exec_reach h hx) he

/-- Run a program on a new database. -/
def MCmd.start (c : TCfg K) (parts : Nat) (hp : 0 < parts) (keep : Nat) (cfg : Cfg) (xs : List (MCmd K)) :
    Option (DB K (LsmC c parts hp keep) × List (Rec K)) := MCmd.run (DB.init _ cfg, []) xs

theorem MCmd.start_reach {cfg : Cfg} (hc : cfg.Plain) {xs : List (MCmd K)}
    {s : DB K (LsmC c parts hp keep) × List (Rec K)} (h : MCmd.start c parts hp keep cfg xs = some s) :
    ∃ cs n, PReach ⟨s.1, cs⟩ s.2 n := MCmd.run_reach ⟨_, _, PReach.init cfg hc⟩ h

/-- Run a program while a snapshot is open. -/
def SCmd.run (s : DB K (LsmC c parts hp keep) × List (Rec K) × Snap K) : List (SCmd K) →
    Option (DB K (LsmC c parts hp keep) × List (Rec K) × Snap K)
  | [] => some s
  | x :: xs => match SCmd.exec (s.1, s.2.1) x with
    | none => none
    | some s' => SCmd.run (s'.1, s'.2, s.2.2.follow s'.1.log) xs

theorem SCmd.run_acts : ∀ {xs : List (SCmd K)} {db : DB K (LsmC c parts hp keep)} {h sn}
    {s s' : DB K (LsmC c parts hp keep) × List (Rec K) × Snap K},
    Acts db h sn s.1 s.2.1 s.2.2 → SCmd.run s xs = some s' → Acts db h sn s'.1 s'.2.1 s'.2.2 := by
  intro xs
  induction xs with
  | nil => intro db h sn s s' ha he; cases he; exact ha
  | cons x xs ih =>
    intro db h sn s s' ha he
    unfold SCmd.run at he
    cases hx : SCmd.exec (s.1, s.2.1) x with
    | none => rw [hx] at he; cases he
    | some s1 => rw [hx] at he; exact ih (Acts.step ha (SCmd.exec_act hx)) he

end Jungle
