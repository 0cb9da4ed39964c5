/-
  Short programs of API calls that are run to get concrete reachable states for examples.
-/
import Verif.DB.Reach
import Verif.Table.Lsm

namespace Jungle
open Spec
variable {K : Type} [LinearOrder K] [OrderBot K] {c : TCfg K} {parts : Nat} {hp : 0 < parts}

inductive Cmd (K : Type)
  /-- `set`; `true`: the log file is full and a new one is started -/
  | put (k : K) (v : UInt8) (se : Bool := false)
  | rm (k : K)
  /-- `setSN` -/
  | putSN (n : Nat) (k : K) (v : UInt8) (se : Bool := false)
  | sync
  | flush
  /-- the two halves of a level-0 compaction of a partition -/
  | l0Begin (p : Nat)
  | l0End (p : Nat)

def Cmd.write (s : DB K (Lsm c parts hp) × List (Rec K)) (r : Rec K) (se : Bool) :
    Option (DB K (Lsm c parts hp) × List (Rec K)) :=
  if s.1.getMaxSeqNum.getD 0 + 1 < NIL ∧ s.1.log.maxNum + 1 < NIL ∧
      (s.1.getMaxSeqNum.isNone = true → se = false) ∧
      (r.seq = NIL ∨ (r.seq < NIL ∧ s.1.getMaxSeqNum.all (fun m => decide (m < r.seq)) = true)) ∧
      (s.1.setRecord r se).1 = .ok then
    some ((s.1.setRecord r se).2, s.2 ++ number (s.1.getMaxSeqNum.getD 0) [r])
  else none

def Cmd.exec (s : DB K (Lsm c parts hp) × List (Rec K)) : Cmd K →
    Option (DB K (Lsm c parts hp) × List (Rec K))
  | .put k v se => Cmd.write s { seq := NIL, type := .insertion, key := k, val := [v] } se
  | .rm k => Cmd.write s { seq := NIL, type := .deletion, key := k } false
  | .putSN n k v se => Cmd.write s { seq := n, type := .insertion, key := k, val := [v] } se
  | .sync => some (s.1.sync.2, s.2)
  | .flush => some ((s.1.flushLogs {} NIL).2, s.2)
  | .l0Begin p => if p < (s.1.table : TMgr K).parts then
      some ({ s.1 with table := TMgr.compactL0Begin s.1.table p }, s.2) else none
  | .l0End p => if p < (s.1.table : TMgr K).parts then
      some ({ s.1 with table := TMgr.compactL0End c s.1.table p (fun _ => false) }, s.2) else none

def Cmd.run (s : DB K (Lsm c parts hp) × List (Rec K)) : List (Cmd K) →
    Option (DB K (Lsm c parts hp) × List (Rec K))
  | [] => some s
  | x :: xs => match Cmd.exec s x with
    | none => none
    | some s' => Cmd.run s' xs

theorem Cmd.write_reach {s s' : DB K (Lsm c parts hp) × List (Rec K)} {r : Rec K} {se : Bool}
    (h : Reach s.1 s.2) (he : Cmd.write s r se = some s') : Reach s'.1 s'.2 := by
  unfold Cmd.write at he
  split at he
  · next hc =>
    obtain ⟨h1, h2, h3, h4, h5⟩ := hc
    cases he
    refine Reach.set r se h ⟨h1, h2⟩ ?_ ?_ (Prod.ext h5 rfl)
    · rcases h4 with h4 | ⟨h4, h6⟩
      · exact Or.inl h4
      · refine Or.inr ⟨h4, fun m hm => ?_⟩
        rw [hm] at h6
        simpa using h6
    · intro hn; exact h3 (by rw [hn]; rfl)
  · cases he

theorem Cmd.exec_reach {s s' : DB K (Lsm c parts hp) × List (Rec K)} {x : Cmd K}
    (h : Reach s.1 s.2) (he : Cmd.exec s x = some s') : Reach s'.1 s'.2 := by
  cases x with
  | put k v se => exact Cmd.write_reach h he
  | rm k => exact Cmd.write_reach h he
  | putSN n k v se => exact Cmd.write_reach h he
  | sync => cases he; exact Reach.sync h rfl
  | flush => cases he; exact Reach.flush {} NIL h rfl (Or.inl rfl) rfl
  | l0Begin p =>
    by_cases hc : p < (s.1.table : TMgr K).parts
    · rw [show Cmd.exec s (.l0Begin p) = _ from if_pos hc] at he
      cases he; exact Reach.maint h (TMgr.Maint.l0Begin _ p hc)
    · rw [show Cmd.exec s (.l0Begin p) = _ from if_neg hc] at he; cases he
  | l0End p =>
    by_cases hc : p < (s.1.table : TMgr K).parts
    · rw [show Cmd.exec s (.l0End p) = _ from if_pos hc] at he
      cases he; exact Reach.maint h (TMgr.Maint.l0End _ p _ hc)
    · rw [show Cmd.exec s (.l0End p) = _ from if_neg hc] at he; cases he

theorem Cmd.run_reach : ∀ {xs : List (Cmd K)} {s s' : DB K (Lsm c parts hp) × List (Rec K)},
    Reach s.1 s.2 → Cmd.run s xs = some s' → Reach s'.1 s'.2 := by
  intro xs
  induction xs with
  | nil => intro s s' h he; cases he; exact h
  | cons x xs ih =>
    intro s s' h he
    unfold Cmd.run at he
    cases hx : Cmd.exec s x with
    | none => rw [hx] at he; cases he
    | some s1 => rw [hx] at he; exact ih (Cmd.exec_reach h hx) he

/-- Run a program on a new database. -/
def Cmd.start (c : TCfg K) (parts : Nat) (hp : 0 < parts) (cfg : Cfg) (xs : List (Cmd K)) :
    Option (DB K (Lsm c parts hp) × List (Rec K)) := Cmd.run (DB.init _ cfg, []) xs

theorem Cmd.start_reach {cfg : Cfg} (hc : cfg.Plain) {xs : List (Cmd K)}
    {s : DB K (Lsm c parts hp) × List (Rec K)} (h : Cmd.start c parts hp cfg xs = some s) :
    Reach s.1 s.2 := Cmd.run_reach (Reach.init cfg hc) h

end Jungle
