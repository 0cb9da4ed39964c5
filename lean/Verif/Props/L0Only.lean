/-
  C23 for databases without level extension (`nextLevelExtension = false`).
-/
import Mathlib.Order.Nat
import Verif.Table.L0OnlyOps

set_option linter.unusedSectionVars false

namespace Jungle
open Spec
variable {K : Type} [LinearOrder K] [OrderBot K]

/-- States of the table section after flushes, compactions (started, finished, cancelled) and
    restarts in any order.  `h` lists the records flushed so far, oldest first.  `o p` says that the
    database was not reopened since the last compaction of partition `p` ended. -/
inductive L0Reach (c : TCfg K) (parts : Nat) : L0S K → List (Rec K) → (Nat → Bool) → Prop
  | init : L0Reach c parts (L0S.init parts) [] (fun _ => true)
  | flush {s h o} (R : List (Rec K)) : L0Reach c parts s h o → Increasing (h ++ R) →
      L0Reach c parts (s.setBatch c R) (h ++ R) o
  | begin {s h o} (p : Nat) : L0Reach c parts s h o → p < s.t.parts → L0Reach c parts (s.begin p) h o
  | finish {s h o} (p : Nat) (preserve : Bool) : L0Reach c parts s h o →
      L0Reach c parts (s.finish p preserve) h
        (if s.run p = none then o else fun r => if r = p then true else o r)
  | cancel {s h o} (p : Nat) : L0Reach c parts s h o → L0Reach c parts (s.cancel p) h o
  | reopen {s h o} : L0Reach c parts s h o → L0Reach c parts s.reopen h (fun _ => false)

theorem L0Reach.inv {c : TCfg K} {parts : Nat} (hp : 0 < parts) {s : L0S K} {h : List (Rec K)}
    {o : Nat → Bool} (hr : L0Reach c parts s h o) : L0S.GInv c h s o := by
  induction hr with
  | init => exact L0S.ginv_init c hp
  | flush R _ hi ih => exact L0S.ginv_flush ih hi
  | begin p _ hpp ih => exact L0S.ginv_begin ih hpp
  | finish p pres _ ih => exact L0S.ginv_finish ih p pres
  | cancel p _ ih => exact L0S.ginv_cancel ih p
  | reopen _ ih => exact L0S.ginv_reopen ih

/-- C23 without level extension: a read gives the last record flushed, nothing if that is a deletion, whatever
    was compacted, in every state in which the partition of the key has at most two tables (no merge of
    two tables is under way or was interrupted) or the database was not reopened since the
    partition was last compacted.  Missing: the other states (`C23_l0only_reopen_violation`) and
    the moment the sources and the result are both listed (`C23_l0only_window_violation`). -/
theorem C23_l0only_partial {c : TCfg K} {parts : Nat} (hp : 0 < parts) {s : L0S K}
    {h : List (Rec K)} {o : Nat → Bool} (hr : L0Reach c parts s h o) (k : K)
    (hk : o (c.hash k % s.t.parts) = true ∨
      (s.t.tablesByHash (c.hash k % s.t.parts)).length ≤ 2) :
    vis (s.t.get c k) = vis (lastWrite h k) := by
  have hg := hr.inv hp
  have hpp : c.hash k % s.t.parts < s.t.parts := Nat.mod_lt _ hg.pos
  obtain ⟨q, hq⟩ := hg.part _ hpp
  rw [TMgr.tablesByHash_eq s.t hpp] at hk
  rw [(L0S.get_chain hg k hq).2 hk]
  exact hq.right k rfl

/-- In every state a read gives the last record flushed, or OK with an empty value; it never gives
    an older record. -/
theorem C23_l0only_right_or_blank_partial {c : TCfg K} {parts : Nat} (hp : 0 < parts) {s : L0S K}
    {h : List (Rec K)} {o : Nat → Bool} (hr : L0Reach c parts s h o) (k : K) :
    vis (s.t.get c k) = vis (lastWrite h k) ∨ s.t.get c k = some (TMgr.blank k) := by
  have hg := hr.inv hp
  have hpp : c.hash k % s.t.parts < s.t.parts := Nat.mod_lt _ hg.pos
  obtain ⟨q, hq⟩ := hg.part _ hpp
  rcases (L0S.get_chain hg k hq).1 with h1 | h1
  · left; rw [h1]; exact hq.right k rfl
  · exact Or.inr h1

/-- A compaction that runs to its end changes no answer: what was read before it started is read
    after it ended, also when it was interrupted and started again. -/
theorem C23_l0only_compaction_invisible {c : TCfg K} {parts : Nat} (hp : 0 < parts) {s s' : L0S K}
    {h : List (Rec K)} {o o' : Nat → Bool} (hr : L0Reach c parts s h o) (hr' : L0Reach c parts s' h o')
    (k : K) (hk : (s.t.tablesByHash (c.hash k % s.t.parts)).length ≤ 2)
    (hk' : (s'.t.tablesByHash (c.hash k % s'.t.parts)).length ≤ 2) :
    vis (s'.t.get c k) = vis (s.t.get c k) := by
  rw [C23_l0only_partial hp hr k (Or.inr hk), C23_l0only_partial hp hr' k (Or.inr hk')]

namespace L0Ex

def c : TCfg Nat := { hash := fun k => k }
def ins (s k : Nat) (v : UInt8) : Rec Nat := { seq := s, type := .insertion, key := k, val := [v] }
def del (s k : Nat) : Rec Nat := { seq := s, type := .deletion, key := k }

/-- A first compaction (0 → 2, writes go to 1), then an update and a deletion. -/
def s1 : L0S Nat := (L0S.init 1).setBatch c [ins 1 4 10, ins 2 5 20, ins 3 6 30]
def s2 : L0S Nat := s1.begin 0
def s3 : L0S Nat := s2.finish 0 false
def s4 : L0S Nat := s3.setBatch c [ins 4 4 11, del 5 5]
def h4 : List (Rec Nat) := [ins 1 4 10, ins 2 5 20, ins 3 6 30] ++ [ins 4 4 11, del 5 5]

theorem r1 : L0Reach c 1 s1 [ins 1 4 10, ins 2 5 20, ins 3 6 30] (fun _ => true) :=
  L0Reach.flush (h := []) [ins 1 4 10, ins 2 5 20, ins 3 6 30] L0Reach.init (by unfold Increasing; decide)
theorem r2 : L0Reach c 1 s2 [ins 1 4 10, ins 2 5 20, ins 3 6 30] (fun _ => true) := r1.begin 0 (by decide)
theorem r3 : ∃ o, L0Reach c 1 s3 [ins 1 4 10, ins 2 5 20, ins 3 6 30] o ∧ o 0 = true :=
  ⟨_, r2.finish 0 false, by rw [if_neg (by decide)]; rfl⟩
theorem r4 : ∃ o, L0Reach c 1 s4 h4 o ∧ o 0 = true := by
  obtain ⟨o, h1, h2⟩ := r3
  exact ⟨o, h1.flush [ins 4 4 11, del 5 5] (by unfold Increasing; decide), h2⟩

example : s4.t.l0.map (fun x => (x.number, x.recs.map (·.1))) = [(2, [4, 5, 6]), (1, [4, 5])] := by decide

/-- During the merge of 1 and 2 (the third table serves writes) reads are right. -/
def s5 : L0S Nat := s4.begin 0
theorem r5 : ∃ o, L0Reach c 1 s5 h4 o ∧ o 0 = true := by
  obtain ⟨o, h1, h2⟩ := r4
  exact ⟨o, h1.begin 0 (by decide), h2⟩

example : s5.t.l0.map (fun x => (x.number, x.status)) =
    [(3, .normal), (2, .compactSrc), (1, .compactSrc)] := by decide
example : vis (s5.t.get c 4) = some (ins 4 4 11) ∧ vis (s5.t.get c 5) = none := by
  obtain ⟨o, h1, h2⟩ := r5
  have hm : ∀ k, c.hash k % s5.t.parts = 0 := fun k => Nat.mod_one k
  refine ⟨?_, ?_⟩
  · rw [C23_l0only_partial (by decide) h1 4 (Or.inl (by rw [hm]; exact h2))]; decide
  · rw [C23_l0only_partial (by decide) h1 5 (Or.inl (by rw [hm]; exact h2))]; decide

/-- After it: one table with the newest records, the deletion is gone. -/
def s6 : L0S Nat := s5.finish 0 false
example : s6.t.l0.map (fun x => (x.number, x.recs)) =
    [(4, [(4, ins 4 4 11), (6, ins 3 6 30)]), (3, [])] := by decide
example (k : Nat) : vis (s6.t.get c k) = vis (s4.t.get c k) := by
  obtain ⟨o, h1, -⟩ := r4
  obtain ⟨o', h2, -⟩ := r5
  have hm : ∀ k, c.hash k % s4.t.parts = 0 := fun k => Nat.mod_one k
  have hm' : ∀ k, c.hash k % (s5.finish 0 false).t.parts = 0 := fun k => Nat.mod_one k
  exact C23_l0only_compaction_invisible (by decide) h1 (h2.finish 0 false) k (by rw [hm]; decide)
    (by rw [hm']; decide)

end L0Ex

open L0Ex in
/-- C23 fails without level extension: the first merge compaction after the database was opened
    again.  Key 4 was written and overwritten; while the two tables that hold the versions are
    compacted (and after a cancelled or crashed compaction until it is repeated), a read of key 4
    reports success with an empty value. -/
theorem C23_l0only_reopen_violation : ∃ (s : L0S Nat) (h : List (Rec Nat)) (o : Nat → Bool),
    L0Reach c 1 s h o ∧ lastWrite h 4 = some (ins 4 4 11) ∧
    s.t.get c 4 = some (ins 4 4 11) ∧
    (s.begin 0).t.get c 4 = some (TMgr.blank 4) ∧ (TMgr.blank 4).val = [] := by
  obtain ⟨o, h1, -⟩ := r4
  exact ⟨s4.reopen, h4, _, h1.reopen, by decide, by decide, by decide, rfl⟩

open L0Ex in
/-- C23 fails without level extension: between the moment the new table is listed and the moment the
    sources are removed, a read of any key they hold reports success with an empty value. -/
theorem C23_l0only_window_violation : ∃ (s : L0S Nat) (h : List (Rec Nat)) (o : Nat → Bool),
    L0Reach c 1 s h o ∧ s.t.get c 6 = some (ins 3 6 30) ∧
    (s.addDst 0 false).t.get c 6 = some (TMgr.blank 6) ∧
    ((s.addDst 0 false).removeSrc 0).t.get c 6 = some (ins 3 6 30) :=
  ⟨s2, _, _, r2, by decide, by decide, by decide⟩

end Jungle
