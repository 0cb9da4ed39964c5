/-
  C70: the statistics of a database: no key is left out of the count, the hierarchy lists every table
  once, and the lowest and highest numbers are those of the tables and log files.
-/
import Verif.DB.Stats
import Verif.Props.Search
import Verif.Props.KV

set_option linter.unusedSectionVars false

namespace Jungle
open Spec Iter
variable {K : Type} [LinearOrder K] [OrderBot K] {c : TCfg K} {parts : Nat} {hp : 0 < parts}

/-- C70: `numKvs` is at least the number of keys that can be read. -/
theorem C70_counts_all {db : DB K (Lsm c parts hp)} {h : List (Rec K)} (hr : Reach db h) (hc : db.closing = false)
    (hier : Bool) {ks : List K} (hn : ks.Nodup) (hk : ∀ k ∈ ks, (db.get k).1 = .ok) :
    (db.getStats hier).1 = .ok ∧ ks.length ≤ (db.getStats hier).2.numKvs := by
  have hans := C01_get_returns_latest_write hr hc
  obtain ⟨A, B, rfl, hi⟩ := hr.inv
  have hck : db.check .read = .ok := by simp [DB.check, hc]
  unfold DB.getStats
  simp only [hck, ne_eq, not_true_eq_false, if_false, hi.mode, Bool.false_eq_true]
  refine ⟨trivial, ?_⟩
  have hsub : ∀ k ∈ ks, k ∈ db.tabs.statTables.flatten.flatMap (fun x => x.recs.map (·.1)) ++
      B.map (·.key) := by
    intro k hkm
    have h1 := hk k hkm
    rw [hans k] at h1
    unfold answer at h1
    rw [List.mem_append]
    cases hB : lastWrite B k with
    | some r =>
      have := lastWrite_mem hB
      exact Or.inr (List.mem_map.2 ⟨r, this.1, this.2.1⟩)
    | none =>
      left
      rw [lastWrite_append, hB, Option.none_or] at h1
      have hold := hi.old k hB
      unfold valueOf at hold
      cases hA : lastWrite A k with
      | none => rw [hA] at h1; simp at h1
      | some r =>
        rw [hA] at h1 hold
        simp only at h1
        have hins : r.isIns = true := by
          by_cases hx : r.isIns = true
          · exact hx
          · rw [if_neg hx] at h1; cases h1
        have hnd : r.isDel = false := by
          unfold Rec.isIns at hins; unfold Rec.isDel
          cases ht : r.type <;> simp_all
        simp only [vis, hnd, Bool.false_eq_true, if_false] at hold
        have hg : ∃ r', TMgr.get c db.tabs k = some r' := by
          have hold' : vis (TMgr.get c db.tabs k) = some r := hold
          cases hx : TMgr.get c db.tabs k with
          | none => rw [hx] at hold'; cases hold'
          | some r' => exact ⟨r', rfl⟩
        obtain ⟨r', hg⟩ := hg
        obtain ⟨x, hx, hxk⟩ := TMgr.get_in_table (c := c) (t := db.tabs) hi.table hg
        exact List.mem_flatMap.2 ⟨x, hx, hxk⟩
  have h1 := keys_le hn hsub
  rw [List.length_append, List.length_flatMap, List.length_map] at h1
  simp only [List.length_map] at h1
  have h2 := hi.log_count
  exact Nat.le_trans h1 (Nat.add_le_add_left h2 _)

/-- C70: if no writer chose its own numbers, the count is exact: the records in the tables, and those
    above the last flushed number. -/
theorem C70_count {db : DB K (Lsm c parts hp)} {h : List (Rec K)} (hr : Reach db h) (hc : db.closing = false)
    (hn : h.map (·.seq) = List.range' 1 h.length) (hier : Bool) :
    (db.getStats hier).2.numKvs =
      ((db.tabs.l0 :: db.tabs.lv).flatten.map (fun x => x.recs.length)).sum +
      (h.filter (fun r => db.getLastFlushedSeqNum.all (fun m => decide (m < r.seq)))).length := by
  obtain ⟨A, B, rfl, hi⟩ := hr.inv
  have hck : db.check .read = .ok := by simp [DB.check, hc]
  rw [hi.above]
  unfold DB.getStats
  simp only [hck, ne_eq, not_true_eq_false, if_false, hi.mode, Bool.false_eq_true]
  rw [hi.log_exact hn, TMgr.statTables_eq (c := c) (t := db.tabs) hi.table]

theorem hierarchyFrom_get (ls : List (List (Tab K))) (i j : Nat) :
    (hierarchyFrom j ls)[i]? = ls[i]?.map (fun l => l.map (Tab.info (j + i))) := by
  induction ls generalizing i j with
  | nil => simp [hierarchyFrom]
  | cons l ls ih =>
    cases i with
    | zero => simp [hierarchyFrom]
    | succ i =>
      simp only [hierarchyFrom, List.getElem?_cons_succ, ih]
      rw [show j + 1 + i = j + (i + 1) by omega]

/-- C70: the hierarchy lists the tables of every level, each once: level 0 with their partitions, the
    levels below with their smallest keys, in the order of the keys. -/
theorem C70_hierarchy {db : DB K (Lsm c parts hp)} {h : List (Rec K)} (hr : Reach db h) (hc : db.closing = false) :
    (db.getStats false).2.hierarchy = [] ∧
    (db.getStats true).2.hierarchy[0]? = some (db.tabs.l0.map
      (fun x => { level := 0, tableIdx := x.number, partitionIdx := x.hashNum, minKey := none })) ∧
    (∀ i, (db.getStats true).2.hierarchy[i + 1]? = db.tabs.lv[i]?.map (fun l => l.map
      (fun x => { level := i + 1, tableIdx := x.number, partitionIdx := 0, minKey := some x.minKey }))) ∧
    (∀ l ∈ (db.getStats true).2.hierarchy, (l.map (·.tableIdx)).Nodup) := by
  obtain ⟨A, B, rfl, hi⟩ := hr.inv
  have hck : db.check .read = .ok := by simp [DB.check, hc]
  have ht : TMgr.Inv c db.tabs := hi.table
  have e : (db.getStats true).2.hierarchy = hierarchyFrom 0 (db.tabs.l0 :: db.tabs.lv) := by
    unfold DB.getStats
    simp only [hck, ne_eq, not_true_eq_false, if_false, hi.mode, Bool.false_eq_true, if_true]
    rw [TMgr.statTables_eq ht]
  refine ⟨?_, ?_, ?_, ?_⟩
  · unfold DB.getStats
    simp only [hck, ne_eq, not_true_eq_false, if_false, hi.mode, Bool.false_eq_true]
  · rw [e]; rfl
  · intro i
    rw [e, hierarchyFrom_get]
    simp only [List.getElem?_cons_succ, Nat.zero_add]
    congr 1
  · intro l hl
    obtain ⟨i, hi'⟩ := List.getElem?_of_mem hl
    rw [e, hierarchyFrom_get] at hi'
    obtain ⟨l', hl', rfl⟩ := Option.map_eq_some_iff.1 hi'
    have hinf : ∀ i, (fun x : Tab K => (Tab.info i x).tableIdx) = fun x => x.number := by
      intro i; funext x; unfold Tab.info; split <;> rfl
    rw [List.map_map]
    show (l'.map (fun x : Tab K => (Tab.info (0 + i) x).tableIdx)).Nodup
    rw [hinf]
    rcases List.mem_cons.1 (List.mem_of_getElem? hl') with rfl | hm
    · exact ht.nums
    · exact (ht.lv l' hm).nums

/-- C70: the lowest and highest table numbers are numbers of tables, and all others are between them;
    the log files have the numbers from `minLogIndex` to `maxLogIndex`. -/
theorem C70_bounds {db : DB K (Lsm c parts hp)} {h : List (Rec K)} (hr : Reach db h) (hc : db.closing = false) (hier : Bool)
    (hN : db.tabs.nextNum ≤ NIL) :
    let tabs := (db.tabs.l0 :: db.tabs.lv).flatten
    (∃ x ∈ tabs, x.number = (db.getStats hier).2.minTable) ∧ (∃ x ∈ tabs, x.number = (db.getStats hier).2.maxTable) ∧
    (∀ x ∈ tabs, (db.getStats hier).2.minTable ≤ x.number ∧ x.number ≤ (db.getStats hier).2.maxTable) ∧
    db.log.files.map (·.num) = List.range' (db.getStats hier).2.minLog
      ((db.getStats hier).2.maxLog + 1 - (db.getStats hier).2.minLog) := by
  obtain ⟨A, B, rfl, hi⟩ := hr.inv
  have hck : db.check .read = .ok := by simp [DB.check, hc]
  have ht : TMgr.Inv c db.tabs := hi.table
  unfold DB.getStats
  simp only [hck, ne_eq, not_true_eq_false, if_false, hi.mode, Bool.false_eq_true]
  rw [TMgr.statTables_eq ht]
  obtain ⟨x0, hx0, -⟩ := ht.normEx 0 ht.pos
  have hx0' : x0 ∈ (db.tabs.l0 :: db.tabs.lv).flatten := by simp [hx0]
  have hlt := ht.l0Num x0 hx0
  obtain ⟨-, m2, m3⟩ := foldl_min_le (db.tabs.l0 :: db.tabs.lv).flatten NIL
  obtain ⟨-, n2, n3⟩ := le_foldl_max (db.tabs.l0 :: db.tabs.lv).flatten 0
  refine ⟨?_, ?_, fun x hx => ⟨m2 x hx, n2 x hx⟩, ?_⟩
  · rcases m3 with m3 | ⟨x, hx, m3⟩
    · have := m2 x0 hx0'; omega
    · exact ⟨x, hx, m3.symm⟩
  · rcases n3 with n3 | ⟨x, hx, n3⟩
    · refine ⟨x0, hx0', ?_⟩
      have := n2 x0 hx0'; omega
    · exact ⟨x, hx, n3.symm⟩
  · obtain ⟨a, h1, h2⟩ := hi.log.nums
    have := hi.log.minNum_eq
    rw [h1]
    congr 1 <;> omega

/-- C70: a handle that is being closed gives no numbers. -/
theorem C70_closing {db : DB K (Lsm c parts hp)} (hc : db.closing = true) (hier : Bool) :
    db.getStats hier = (.handleIsBeingClosed, {}) := by
  unfold DB.getStats
  have : db.check .read = .handleIsBeingClosed := by simp [DB.check, hc]
  simp [this]

namespace StatsEx
open IterEx SearchEx

/-- One record with the number 10^6. -/
def st0 := (Cmd.start IterEx.c 1 (by decide) {} []).get (by decide +kernel)
def st1 : DB Nat (Lsm IterEx.c 1 (by decide)) := (st0.1.setSN 1000000 7 [1]).2
theorem rt0 : Reach st0.1 st0.2 := Cmd.start_reach plain (Option.some_get _).symm
theorem fresh : st0.1.FreshSeq 1000000 := Or.inr ⟨by decide, by
  intro m hm
  have : st0.1.getMaxSeqNum = none := by decide +kernel
  rw [this] at hm; cases hm⟩
theorem rt1 : Reach st1 (st0.2 ++ number 0 [{ seq := 1000000, type := .insertion, key := 7, val := [1] }]) :=
  Reach.set (db' := st1) { seq := 1000000, type := .insertion, key := 7, val := [1] } false rt0
    (by unfold DB.Fits; decide +kernel) fresh
    (fun _ => rfl) (by rfl)

/-- Written and deleted, and the tombstone flushed. -/
def st2 := (Cmd.start IterEx.c 1 (by decide) {} [.put 5 1, .sync, .flush, .rm 5, .sync, .flush]).get (by decide +kernel)
theorem rt2 : Reach st2.1 st2.2 := Cmd.start_reach plain (Option.some_get _).symm

/-- Two keys in the table, one of them overwritten in the log. -/
def st3 := (Cmd.start IterEx.c 1 (by decide) {} [.put 5 1, .put 6 2, .sync, .flush, .put 5 3]).get (by decide +kernel)
theorem rt3 : Reach st3.1 st3.2 := Cmd.start_reach plain (Option.some_get _).symm

end StatsEx

open StatsEx IterEx in
/-- C70 violation: one record with a number the writer chose counts for as many as the number says. -/
theorem C70_gap_violation : ∃ (db : DB Nat (Lsm IterEx.c 1 (by decide))) (h : List (Rec Nat)), Reach db h ∧ h.length = 1 ∧
    (db.getStats true).2.numKvs = 1000000 :=
  ⟨st1, _, rt1, by decide +kernel, by decide +kernel⟩

open StatsEx IterEx in
/-- C70 violation: a database in which no key can be read is counted as one with a pair. -/
theorem C70_tombstone_violation : ∃ (db : DB Nat (Lsm IterEx.c 1 (by decide))) (h : List (Rec Nat)), Reach db h ∧ db.closing = false ∧
    (∀ k, (db.get k).1 ≠ .ok) ∧ (db.getStats true).2.numKvs = 1 := by
  refine ⟨st2.1, st2.2, rt2, rfl, fun k => ?_, by decide +kernel⟩
  rw [C01_get_returns_latest_write rt2 rfl]
  have : st2.2 = [insr 1 5 1, { seq := 2, type := .deletion, key := 5 }] := by decide +kernel
  rw [this]
  unfold answer
  have e : lastWrite [insr 1 5 1, ({ seq := 2, type := .deletion, key := 5 } : Rec Nat)] k =
      if 5 = k then some { seq := 2, type := .deletion, key := 5 } else none := by
    by_cases hk : 5 = k
    · subst hk; decide
    · simp [lastWrite, insr, hk, List.filter]
  rw [e]
  by_cases hk : 5 = k <;> simp [hk, Rec.isIns]

/-- C70 violation: in log-section mode there are no tables, and the lowest table number is 2^64 - 1. -/
theorem C70_no_table_violation : ∃ db : DB K (Lsm c parts hp),
    db = DB.init (Lsm c parts hp) { logSectionOnly := true } ∧ (db.getStats true).1 = .ok ∧
    (db.getStats true).2.minTable = NIL ∧ (db.getStats true).2.maxTable = 0 :=
  ⟨_, rfl, rfl, rfl, rfl⟩

namespace StatsEx
open IterEx

-- 5 and 6 can be read, and 3 pairs are counted
example : (st3.1.getStats true).2.numKvs = 3 ∧ (st3.1.getStats true).2.hierarchy =
    [[{ level := 0, tableIdx := 0 }]] ∧ (st3.1.getStats true).2.minLog = 0 := by decide +kernel
example : [5, 6].length ≤ (st3.1.getStats false).2.numKvs :=
  (C70_counts_all rt3 rfl false (ks := [5, 6]) (by decide) (by decide +kernel)).2
example := C70_count rt3 rfl (by decide +kernel) true
example := C70_bounds rt3 rfl true (by decide +kernel)
-- three tables in level 1
example : (SearchEx.s2.getStats true).2.hierarchy.map List.length = [1, 3] ∧ (SearchEx.s2.getStats true).2.minTable = 1 := by decide +kernel

end StatsEx
end Jungle
