/-
  C63: the repair of the tables after a crash inside a merge of two tables.
-/
import Verif.Table.Fix
import Verif.Props.Table

set_option linter.unusedSectionVars false

namespace Jungle
open Spec TMgr
variable {K : Type} [LinearOrder K] [OrderBot K]

/-- Histories of the table section in which merges may be cut off by crashes at any point, if the
    background repair of the level comes before any other compaction, split or merge ends; records may
    be flushed and level-0 compactions begun before it, and the repair may itself be cut off by crashes
    any number of times. -/
inductive TReachFix (c : TCfg K) (parts : Nat) : TMgr K → List (Rec K) → Prop
  | init : TReachFix c parts (TMgr.init parts) []
  | flush {t h} (R : List (Rec K)) : TReachFix c parts t h → TReachFix c parts (t.setBatch c R) (h ++ R)
  | maint {t t' h} : TReachFix c parts t h → TMgr.Maint c t t' → TReachFix c parts t' h
  | repair {t t' h R} (i n : Nat) : TReachFix c parts t h → Broken c i n t true R t' →
      TReachFix c parts (t'.fixOp c i n) (h ++ R)

theorem TReachFix.inv {c : TCfg K} {parts : Nat} (hp : 0 < parts) {t : TMgr K} {h : List (Rec K)}
    (hr : TReachFix c parts t h) : Inv c t ∧ ∀ k, vis (t.get c k) = vis (lastWrite h k) := by
  induction hr with
  | init => exact TReach.init.inv hp
  | flush R _ ih =>
    obtain ⟨h1, h2, h3⟩ := setBatch_ok ih.1 R
    refine ⟨h1, fun k => ?_⟩
    rw [h3 k, lastWrite_append]
    exact vis_or (ih.2 k)
  | maint _ hm ih =>
    have h1 := hm.same ih.1
    exact ⟨h1.inv, fun k => (h1.vis k).trans (ih.2 k)⟩
  | repair i n _ hb ih =>
    have h1 := hb.fixed ih.1
    refine ⟨h1.1, fun k => ?_⟩
    rw [h1.2 k, lastWrite_append]
    exact vis_or (ih.2 k)

/-- C63: a merge of two tables cut off by a crash, then any number of starts, flushes (of the records
    `R`) and of repairs cut off by crashes, then a repair that ends: every answer is the one of before
    the merge and the flushes since. -/
theorem C63_repair_restores {c : TCfg K} {parts : Nat} (hp : 0 < parts) {t t' : TMgr K} {h R : List (Rec K)}
    (hr : TReachFix c parts t h) {i n : Nat} (hb : Broken c i n t true R t') (k : K) :
    vis ((t'.fixOp c i n).get c k) = vis (lastWrite (h ++ R) k) := by
  rw [(hb.fixed (hr.inv hp).1).2 k, lastWrite_append]
  exact vis_or ((hr.inv hp).2 k)

/-- C63, the history goes on: the tables answer with the last record flushed.  Full claim: also when
    other work on the tables comes between the start and the repair; false, see below. -/
theorem C63_history_partial {c : TCfg K} {parts : Nat} (hp : 0 < parts) {t : TMgr K} {h : List (Rec K)}
    (hr : TReachFix c parts t h) (k : K) : vis (t.get c k) = vis (lastWrite h k) := (hr.inv hp).2 k

/-- C63, before the repair: no read gives a wrong value; a key of the table whose merge was cut off
    may read as OK with an empty value (`C24_crash_in_merge_violation`). -/
theorem C63_reads_before_repair_partial {c : TCfg K} {parts : Nat} (hp : 0 < parts) {t t' : TMgr K} {h R : List (Rec K)}
    (hr : TReachFix c parts t h) {i n : Nat} {u : Bool} (hb : Broken c i n t u R t') (k : K) :
    vis (t'.get c k) = vis (lastWrite (h ++ R) k) ∨
      (((t'.get c k).map (·.val) = some [] ∧ (t'.get c k).map (·.seq) = some NIL) ∧
        ∃ l ∈ t.lv, ∃ v ∈ l, v.number = n ∧ (v.get k).isSome) := by
  rcases hb.reads (hr.inv hp).1 k with h1 | ⟨h1, h2⟩
  · left
    rw [h1, lastWrite_append]
    exact vis_or ((hr.inv hp).2 k)
  · right; rw [h1]; exact ⟨⟨rfl, rfl⟩, h2⟩

/-- C63, whatever the two tables hold (writes may have reached the second one since the crash): after
    the repair no key from the second table's min key on is in the first table, and the second one has
    for it whichever record had the larger sequence number; all other keys are as before. -/
theorem C63_newer_record_stays {A : List (Tab K)} {d v : Tab K} {B : List (Tab K)}
    (hn : ((A ++ d :: v :: B).map (·.number)).Nodup) (hds : d.recs.Sorted) (hdk : ∀ e ∈ d.recs, e.2.key = e.1)
    (hvs : v.recs.Sorted) (hf : v.prevReq = true) :
    ∃ d' v', fixTable (A ++ d :: v :: B) v false = A ++ d' :: v' :: B ∧ v'.prevReq = false ∧
      v'.minKey = v.minKey ∧
      (∀ k < v.minKey, d'.get k = d.get k ∧ v'.get k = v.get k) ∧
      (∀ k, v.minKey ≤ k → d'.get k = none) ∧
      (∀ k, v.minKey ≤ k → d.get k = none → v'.get k = v.get k) ∧
      (∀ k r, v.minKey ≤ k → d.get k = some r → v.get k = none → v'.get k = some r) ∧
      (∀ k r w, v.minKey ≤ k → d.get k = some r → v.get k = some w → r.seq ≤ w.seq → v'.get k = some w) ∧
      (∀ k r w, v.minKey ≤ k → d.get k = some r → v.get k = some w → w.seq < r.seq → v'.get k = some r) := by
  have hkey : ∀ {k r}, d.get k = some r → r.key = k := fun h => hdk _ (SMap.find?_some_mem h)
  have hmin : ∀ (rs : List (Rec K)) (x : Tab K), (fixVictim false x rs).minKey = x.minKey := by
    intro rs
    induction rs with
    | nil => intro x; rfl
    | cons r rs ih =>
      intro x
      refine (ih (if skipFix x r then x else x.setSingle r false false)).trans ?_
      split <;> rfl
  have hnd := toFix_keys (v := v) hds hdk
  have hmem : ∀ {k r}, v.minKey ≤ k → d.get k = some r → r ∈ toFix d v := fun {k r} h1 h2 =>
    (mem_toFix_iff hds hdk r).2 (by rw [hkey h2]; exact ⟨h2, h1⟩)
  have hget : ∀ {k r}, v.minKey ≤ k → d.get k = some r → (fixVictim false v (toFix d v)).get k =
      if skipFix v r then v.get k else some r := by
    intro k r h1 h2
    have := fixVictim_mem false _ v hvs hnd r (hmem h1 h2)
    rw [hkey h2] at this
    simpa using this
  refine ⟨_, _, fixTable_at hn hf false, rfl, hmin _ _, ?_, ?_, ?_, ?_, ?_, ?_⟩
  · intro k hk
    have hno : ∀ r ∈ toFix d v, r.key ≠ k := fun r hr e =>
      absurd ((mem_toFix_iff hds hdk r).1 hr).2 (not_le.2 (e ▸ hk))
    refine ⟨?_, fixVictim_get false _ v hvs hnd k hno⟩
    rw [fixTarget_get, if_neg]
    intro h1
    obtain ⟨r, hr, e⟩ := List.mem_map.1 h1
    exact hno r hr e
  · intro k hk
    rw [fixTarget_get]
    split
    · rfl
    · next h1 =>
      cases hg : d.get k with
      | none => rfl
      | some r => exact absurd (List.mem_map.2 ⟨r, hmem hk hg, hkey hg⟩) h1
  · intro k hk hg
    refine fixVictim_get false _ v hvs hnd k (fun r hr e => ?_)
    have := ((mem_toFix_iff hds hdk r).1 hr).1
    rw [e, hg] at this; cases this
  · intro k r hk h1 h2
    refine (hget hk h1).trans (if_neg ?_)
    unfold skipFix; rw [hkey h1, h2]; simp
  · intro k r w hk h1 h2 h3
    refine (hget hk h1).trans ((if_pos ?_).trans h2)
    unfold skipFix; rw [hkey h1, h2]; simpa using h3
  · intro k r w hk h1 h2 h3
    refine (hget hk h1).trans (if_neg ?_)
    unfold skipFix; rw [hkey h1, h2]; simpa using h3

/-- C63, a table without a table before it: the repair changes nothing but the mark. -/
theorem C63_first_table {v : Tab K} {B : List (Tab K)} (hn : ((v :: B).map (·.number)).Nodup) (p : Bool) :
    fixTable (v :: B) v p = { v with prevReq := false } :: B := by
  rw [List.map_cons, List.nodup_cons] at hn
  unfold fixTable
  cases hf : v.prevReq with
  | false => rw [if_neg (by simp)]; congr 1; cases v; simp_all
  | true =>
    rw [if_pos rfl, tableBefore_first]
    dsimp only
    exact modify_at (A := []) (fun x hx e => hn.1 (List.mem_map.2 ⟨x, hx, e⟩))

namespace FixEx
open TableEx

/-- Level 1 has two tables, 0 and 5 (both partitions compacted), and is the last one. -/
def s0 : TMgr Nat := (TMgr.init 1 : TMgr Nat).setBatch c [ins 1 1 10, ins 2 4 20, ins 3 5 30, ins 4 7 40]
def s1 : TMgr Nat := s0.compactL0Begin 0
def s2 : TMgr Nat := s1.compactL0End c 0 (fun i => i == 2)

theorem s2_reach : TReachFix c 1 s2 ([] ++ [ins 1 1 10, ins 2 4 20, ins 3 5 30, ins 4 7 40]) :=
  .maint (.maint (.flush _ .init) (.l0Begin s0 0 (by decide))) (.l0End s1 0 _ (by decide))

def shape (t : TMgr Nat) : List (List (Nat × Nat × Bool × List Nat)) :=
  t.lv.map (fun l => l.map (fun x => (x.number, x.minKey, x.prevReq, x.recs.map (·.1))))

example : shape s2 = [[(2, 0, false, [1, 4]), (3, 5, false, [5, 7])]] := by decide

/-- The merge of table 3 stops after one record; the start finds it, and reading that key gives OK and
    an empty value. -/
def s3 : TMgr Nat := s2.mergeOpCut c 0 3 1
theorem s3_broken : Broken c 0 3 s2 true [] s3.reopen := .start (.crash 1)

example : shape s3.reopen = [[(2, 0, false, [1, 4, 5]), (3, 5, true, [5, 7])]] ∧
    (s3.reopen.get c 5).map (·.val) = some [] ∧ (s3.reopen.get c 7).map (·.val) = some [40] := by decide

/-- The repair, after a repair that crashed, gives the old level back. -/
example : shape ((s3.reopen.fixOpCut c 0 3 1 0).reopen.fixOp c 0 3) = shape s2 := by decide

/-- Key 7 is written and key 1 deleted before the repair that ends. -/
theorem s3_broken2 : Broken c 0 3 s2 true ([] ++ [ins 5 7 50, del 6 1])
    (((s3.reopen.fixOpCut c 0 3 1 0).reopen.setBatch c [ins 5 7 50, del 6 1]).compactL0Begin 0) :=
  .l0Begin 0 (by decide) (.flush _ (.start (.fixCrash 1 0 s3_broken)))

example (k : Nat) : vis (((((s3.reopen.fixOpCut c 0 3 1 0).reopen.setBatch c [ins 5 7 50, del 6 1]).compactL0Begin 0).fixOp
    c 0 3).get c k) = vis (lastWrite [ins 1 1 10, ins 2 4 20, ins 3 5 30, ins 4 7 40, ins 5 7 50, del 6 1] k) :=
  C63_repair_restores (by decide) s2_reach s3_broken2 k

/-- The same crash; before the repair key 5 is deleted, and the deletion is flushed and compacted into
    level 1, where it removes the record of table 3 and is dropped. -/
def s4 : TMgr Nat := s3.reopen.setBatch c [del 5 5]
def s5 : TMgr Nat := (s4.compactL0Begin 0).compactL0End c 0 (fun _ => false)

example : shape s5 = [[(2, 0, false, [1, 4, 5]), (3, 5, true, [7])]] := by decide
/-- Since the crash the key 5 has been written again and has reached the second table; the key 9 is only
    in the first one. -/
def w0 : Tab Nat := { number := 1, minKey := 0, recs := [(1, ins 1 1 10), (5, ins 2 5 20), (9, ins 3 9 30)] }
def w1 : Tab Nat := { number := 2, minKey := 4, recs := [(5, ins 7 5 70)], prevReq := true }

example : ((([w0, w1] : List (Tab Nat)).map (·.number)).Nodup ∧ w1.prevReq = true ∧
    (∀ e ∈ w0.recs, e.2.key = e.1)) ∧
    (fixTable [w0, w1] w1 false).map (fun x => (x.number, x.prevReq, x.recs.map (fun e => (e.1, e.2.seq)))) =
      [(1, false, [(1, 1)]), (2, false, [(5, 7), (9, 3)])] ∧
    (fixTable [w1, w0] w1 false).map (fun x => (x.number, x.prevReq, x.recs.map (fun e => (e.1, e.2.seq)))) =
      [(2, false, [(5, 7)]), (1, false, [(1, 1), (5, 2), (9, 3)])] := by decide

example : w0.recs.Sorted ∧ w1.recs.Sorted := by unfold SMap.Sorted; decide

end FixEx

/-- A deletion that is compacted into the last level between the start and the repair brings the
    deleted value back, before the repair and after it: the copy in the table before is now the only
    record of the key. -/
theorem C63_deleted_comes_back_violation :
    ∃ (t t' : TMgr Nat) (h : List (Rec Nat)) (i n k : Nat) (d : Rec Nat), TReachFix TableEx.c 1 t h ∧
      Broken TableEx.c i n t true [] t' ∧ d.isDel = true ∧ d.key = k ∧ (∀ r ∈ h, r.seq < d.seq) ∧
      (let u := ((t'.setBatch TableEx.c [d]).compactL0Begin 0).compactL0End TableEx.c 0 (fun _ => false)
       (u.get TableEx.c k).map (·.val) = some [30] ∧
       ((u.fixOp TableEx.c i n).get TableEx.c k).map (·.val) = some [30]) :=
  ⟨FixEx.s2, FixEx.s3.reopen, _, 0, 3, 5, TableEx.del 5 5, FixEx.s2_reach, FixEx.s3_broken, by decide, rfl, by decide,
    by decide⟩

end Jungle
