/-
  Model of `DB::getStats` (src/jungle.cc:906-960) with `TableMgr::getStats` (src/table_mgr.cc:1015-1060):
  the number of key-value pairs, the numbers of the log files and tables, and the table hierarchy.
-/
import Verif.Iter.LogItrLemmas
import Verif.Table.Lsm
import Verif.DB.ReachInv
import Mathlib.Data.List.Lattice
import Mathlib.Data.List.Dedup

set_option linter.unusedSectionVars false

namespace Jungle
open Spec Iter
variable {K : Type} [LinearOrder K] [OrderBot K]

/-- `TableHierarchyInfo` (include/libjungle/db_stats.h:39-91): the partition is set for level 0, the
    smallest key for the levels below. -/
structure TabInfo (K : Type) where
  level : Nat
  tableIdx : Nat
  partitionIdx : Nat := 0
  minKey : Option K := none
  deriving DecidableEq, Repr

/-- `DBStats` (include/libjungle/db_stats.h:99-195).  Simplification: sizes, the cache and the counts of
    memtables, index nodes and tasks are left out. -/
structure DBStats (K : Type) where
  numKvs : Nat := 0
  minTable : Nat := 0
  maxTable : Nat := 0
  minLog : Nat := 0
  maxLog : Nat := 0
  hierarchy : List (List (TabInfo K)) := []
  deriving DecidableEq, Repr

/-- The number of entries of the log section (src/jungle.cc:915-932). -/
def LogMgr.statKvs (l : LogMgr K) : Nat :=
  match availSeqRange l with
  | none => 0
  | some (mn, mx) => if mn ≠ NIL ∧ mx ≠ NIL ∧ mn ≤ mx then (if mn ≠ 0 then mx - mn + 1 else mx) else 0

/-- The tables of all levels (src/table_mgr.cc:1020-1027 with `getTablesRange`,
    src/table_manifest.cc:674-729, for empty keys).  There are none in log-section mode (276-293). -/
def TMgr.statTables (t : TMgr K) : List (List (Tab K)) :=
  t.tablesByHash t.parts :: t.lv.map (fun l => TMgr.tablesRange l ⊥ none)

/-- `TableHierarchyInfo` of one table (src/table_mgr.cc:1041-1050). -/
def Tab.info (level : Nat) (x : Tab K) : TabInfo K :=
  if level = 0 then { level := level, tableIdx := x.number, partitionIdx := x.hashNum }
  else { level := level, tableIdx := x.number, minKey := some x.minKey }

/-- `std::map<uint32_t, std::list<TableHierarchyInfo>>`, as the lists of the levels in order. -/
def hierarchyFrom : Nat → List (List (Tab K)) → List (List (TabInfo K))
  | _, [] => []
  | i, l :: ls => l.map (Tab.info i) :: hierarchyFrom (i + 1) ls

/-- The tables of a database (`DBInternal::tableMgr`, src/db_internal.h). -/
def DB.tabs {c : TCfg K} {parts : Nat} {hp : 0 < parts} (db : DB K (Lsm c parts hp)) : TMgr K := db.table

/-- `DB::getStats` (src/jungle.cc:906-960).  A table file counts its records, tombstones too
    (`TableFile::getStats`, src/table_file.cc:1699-1712). -/
def DB.getStats {c : TCfg K} {parts : Nat} {hp : 0 < parts} (db : DB K (Lsm c parts hp)) (hier : Bool) : Status × DBStats K :=
  if db.check .read ≠ .ok then (db.check .read, {})
  else
    let ts : List (List (Tab K)) := if db.log.cfg.logSectionOnly then [] else db.tabs.statTables
    let all := ts.flatten
    (.ok, { numKvs := (all.map (fun x => x.recs.length)).sum + db.log.statKvs
            minTable := all.foldl (fun m x => min x.number m) NIL
            maxTable := all.foldl (fun m x => max x.number m) 0
            minLog := db.log.minNum
            maxLog := db.log.maxNum
            hierarchy := if hier then hierarchyFrom 0 ts else [] })

/-! ### Lemmas -/

namespace TMgr

theorem tablesByHash_all (t : TMgr K) : t.tablesByHash t.parts = t.l0 := by
  unfold tablesByHash
  rw [List.filter_eq_self]
  intro x _
  simp

theorem fromFloor_bot {l : List (Tab K)} (h : LevelOk l) (prev : Option (Tab K)) : (fromFloor prev l ⊥).2 = l := by
  cases l with
  | nil => rfl
  | cons x xs =>
    cases xs with
    | nil => rfl
    | cons y ys =>
      simp only [fromFloor]
      have hlt : x.minKey < y.minKey := (List.pairwise_cons.1 h.sorted).1 y (by simp)
      rw [if_neg (fun hle => by
        have := lt_of_lt_of_le hlt hle
        exact absurd this not_lt_bot)]

theorem tablesRange_all {l : List (Tab K)} (h : LevelOk l) : tablesRange l ⊥ none = l := by
  unfold tablesRange
  simp only [fromFloor_bot h]
  cases l with
  | nil => rfl
  | cons x xs => simp [(h.tab x (by simp)).2.2]

theorem statTables_eq {c : TCfg K} {t : TMgr K} (h : Inv c t) : t.statTables = t.l0 :: t.lv := by
  unfold statTables
  rw [tablesByHash_all]
  congr 1
  conv_rhs => rw [← List.map_id t.lv]
  apply List.map_congr_left
  intro l hl
  exact tablesRange_all (h.lv l hl)

/-- What a lookup finds is in some table. -/
theorem get_in_table {c : TCfg K} {t : TMgr K} (h : Inv c t) {k : K} {r : Rec K} (hg : t.get c k = some r) :
    ∃ x ∈ t.statTables.flatten, k ∈ x.recs.map (·.1) := by
  have key : ∀ x : Tab K, x.get k = some r → k ∈ x.recs.map (·.1) := by
    intro x hx
    unfold Tab.get at hx
    exact List.mem_map.2 ⟨_, SMap.find?_some_mem hx, rfl⟩
  rw [statTables_eq h]
  rw [get_eq h] at hg
  have hp : c.hash k % t.parts < t.parts := Nat.mod_lt _ h.pos
  rcases Option.or_eq_some_iff.1 hg with h1 | ⟨-, h1⟩
  · rcases Option.or_eq_some_iff.1 h1 with h2 | ⟨-, h2⟩
    · obtain ⟨x, hx, hr⟩ := Option.bind_eq_some_iff.1 h2
      exact ⟨x, by simp [((normOf_iff h _ x).1 hx).1], key x hr⟩
    · obtain ⟨x, hx, hr⟩ := Option.bind_eq_some_iff.1 h2
      exact ⟨x, by simp [((srcOf_iff h hp x).1 hx).1], key x hr⟩
  · unfold lvLook at h1
    obtain ⟨l, hl, h2⟩ := List.exists_of_findSome?_eq_some h1
    unfold look at h2
    obtain ⟨x, hx, hr⟩ := List.exists_of_findSome?_eq_some h2
    exact ⟨x, by simp only [List.flatten_cons, List.mem_append, List.mem_flatten]; exact Or.inr ⟨l, hl, hx⟩, key x hr⟩

end TMgr

/-- Rising numbers in an interval. -/
theorem rising_length {B : List (Rec K)} (hi : Increasing B) {a b : Nat} (ha : ∀ r ∈ B, a ≤ r.seq ∧ r.seq ≤ b) :
    B.length ≤ b + 1 - a := by
  have hs : (B.map (·.seq)).Nodup := by
    have : (B.map (·.seq)).Pairwise (· < ·) := List.pairwise_map.2 hi
    exact this.imp (fun h => Nat.ne_of_lt h)
  have hsub : B.map (·.seq) ⊆ List.range' a (b + 1 - a) := by
    intro x hx
    obtain ⟨r, hr, rfl⟩ := List.mem_map.1 hx
    have := ha r hr
    rw [List.mem_range'_1]
    omega
  have := (List.subperm_of_subset hs hsub).length_le
  simpa using this

/-- The highest number comes from the newest log file. -/
theorem DBInv.max_of_newest {S : TableSys K} {db : DB K S} {A B} (h : DBInv db A B) {gs g} (hg : db.log.files = gs ++ [g])
    (hmx : g.mem.maxSeqNum ≠ NIL) : db.getMaxSeqNum = some g.mem.maxSeqNum := by
  have hgm : g ∈ db.log.files := by rw [hg]; simp
  have hfi : db.log.file? db.log.maxNum = some g := by rw [← h.log.last_num hg]; exact h.log.file?_mem hgm
  have hlen : db.log.files.length = gs.length + 1 := by rw [hg]; simp
  unfold DB.getMaxSeqNum LogMgr.getMaxSeqNum
  rw [if_neg (by simp [h.log.bar]), hlen]
  simp [LogMgr.getMaxSeqNum.go, hfi, hmx]

/-- With nothing in the log its count is 0. -/
theorem DBInv.log_empty {S : TableSys K} {db : DB K S} {A} (h : DBInv db A []) : db.log.statKvs = 0 := by
  obtain ⟨f, fs, g, gs, hf, hg, ha⟩ := availSeqRange_eq h.log
  unfold LogMgr.statKvs
  rw [ha]
  simp only
  rw [if_neg]
  rintro ⟨-, hmx, hle⟩
  have hm := h.max_of_newest hg hmx
  by_cases hA : A = []
  · have := h.max0 (by simp [hA])
    change db.getMaxSeqNum = none at this
    rw [hm] at this; cases this
  · have h2 := h.maxS (by simp [hA])
    change db.getMaxSeqNum = _ at h2
    rw [hm, List.append_nil] at h2
    obtain ⟨r, hr, he⟩ := Option.map_eq_some_iff.1 h2.symm
    have := h.log.mark f fs hf r (List.mem_of_getLast? hr)
    rw [if_neg this.1] at hle
    omega

/-- The records of the log are those above the flush mark, and the numbers `getStats` takes. -/
theorem DBInv.log_window {S : TableSys K} {db : DB K S} {A B} (h : DBInv db A B) (hB : B ≠ []) :
    ∃ mn mx, availSeqRange db.log = some (mn, mx) ∧ mn ≠ NIL ∧ mx ≠ NIL ∧ mn ≤ mx ∧
      (∀ r ∈ B, mn ≤ r.seq ∧ r.seq ≤ mx) ∧ db.getMaxSeqNum = some mx ∧
      (∀ r ∈ A, r.seq < mn) ∧ mn = (match db.getLastFlushedSeqNum with | none => 0 | some m => m + 1) := by
  obtain ⟨f, fs, g, gs, hf, hg, ha⟩ := availSeqRange_eq h.log
  have hgm : g ∈ db.log.files := by rw [hg]; simp
  have hfm : f ∈ db.log.files := by rw [hf]; simp
  have hmx : g.mem.maxSeqNum ≠ NIL := fun hn => hB (List.append_eq_nil_iff.1 ((h.log.top gs g hg).1 hn).1).2
  have hfl : db.getLastFlushedSeqNum = if f.mem.flushedSeqNum = NIL then none else some f.mem.flushedSeqNum := by
    unfold DB.getLastFlushedSeqNum LogMgr.getLastFlushedSeqNum
    have hfn : f.num = db.log.minNum := by unfold LogMgr.minNum; rw [hf]
    rw [h.log.getLastFlushedLog_eq, ← hfn, h.log.file?_mem hfm]
  have hA : ∀ r ∈ A, r.seq < if f.mem.flushedSeqNum = NIL then 0 else f.mem.flushedSeqNum + 1 := by
    intro r hr
    have := h.log.mark f fs hf r hr
    rw [if_neg this.1]
    omega
  have hmn : (if f.mem.flushedSeqNum = NIL then 0 else f.mem.flushedSeqNum + 1) =
      (match db.getLastFlushedSeqNum with | none => 0 | some m => m + 1) := by
    rw [hfl]; split <;> rfl
  generalize (if f.mem.flushedSeqNum = NIL then 0 else f.mem.flushedSeqNum + 1) = lo at ha hmn hA
  rcases itrRange_spec h.log with ⟨-, h0⟩ | ⟨mn, mx, hr, h1, h2, -⟩
  · exact absurd h0 hB
  · have hr' := hr
    unfold itrRange at hr'
    rw [ha] at hr'
    simp only [valid, bne_self_eq_false, Bool.false_and, Bool.false_eq_true, if_false, h.log.bar, ne_eq,
      not_true_eq_false, false_and] at hr'
    split at hr'
    · cases hr'
    · next hle =>
      cases hr'
      refine ⟨_, _, ha, h1, hmx, by omega, ?_, ?_, ?_, hmn⟩
      · intro r hr
        rw [h.log.pend] at hr
        obtain ⟨e, he, hp⟩ := List.mem_flatMap.1 hr
        have hp' := mem_pending.1 hp
        have := h2 e he r hp'.1
        exact ⟨by have := mt this.2.2 hp'.2; omega, this.1⟩
      · exact h.max_of_newest hg hmx
      · exact hA

/-- The count of the log section is at least the number of its records. -/
theorem DBInv.log_count {S : TableSys K} {db : DB K S} {A B} (h : DBInv db A B) : B.length ≤ db.log.statKvs := by
  by_cases hB : B = []
  · rw [hB]; exact Nat.zero_le _
  · obtain ⟨mn, mx, ha, h1, h2, h3, h4, -⟩ := h.log_window hB
    have hinc : Increasing B := (List.pairwise_append.1 h.log.inc).2.1
    unfold LogMgr.statKvs
    rw [ha]
    simp only
    rw [if_pos ⟨h1, h2, h3⟩]
    split
    · have := rising_length hinc h4; omega
    · have := rising_length hinc (a := 1) (b := mx) (fun r hr => ⟨(h.pos r (List.mem_append_right _ hr)).1, (h4 r hr).2⟩)
      omega

/-- `n` consecutive numbers, of which those from `m` on are kept. -/
theorem filter_range' (m : Nat) : ∀ n a, ((List.range' a n).filter (fun x => decide (m ≤ x))).length = a + n - max a m
  | 0, a => by simp only [List.range'_zero, List.filter_nil, List.length_nil]; omega
  | n + 1, a => by
    rw [List.range'_succ, List.filter_cons]
    have ih := filter_range' m n (a + 1)
    by_cases hm : m ≤ a
    · simp only [decide_eq_true hm, if_true, List.length_cons, ih]; omega
    · simp only [decide_eq_false hm, Bool.false_eq_true, if_false, ih]; omega

/-- With consecutive numbers the count is exact. -/
theorem DBInv.log_exact {S : TableSys K} {db : DB K S} {A B} (h : DBInv db A B)
    (hn : (A ++ B).map (·.seq) = List.range' 1 (A ++ B).length) : db.log.statKvs = B.length := by
  by_cases hB : B = []
  · subst hB; exact h.log_empty
  obtain ⟨mn, mx, ha, h1, h2, h3, h4, hmax, hA, -⟩ := h.log_window hB
  have hB' : B = (A ++ B).filter (fun r => decide (mn ≤ r.seq)) := by
    rw [List.filter_append]
    have e1 : A.filter (fun r => decide (mn ≤ r.seq)) = [] := by
      rw [List.filter_eq_nil_iff]
      intro r hr
      have := hA r hr
      simp only [decide_eq_true_eq]; omega
    have e2 : B.filter (fun r => decide (mn ≤ r.seq)) = B := by
      rw [List.filter_eq_self]
      intro r hr
      simpa using (h4 r hr).1
    rw [e1, e2, List.nil_append]
  have hlen : B.length = ((List.range' 1 (A ++ B).length).filter (fun x => decide (mn ≤ x))).length := by
    rw [← hn, List.filter_map, List.length_map]
    exact congrArg List.length hB'
  rw [filter_range'] at hlen
  have hmx : mx = (A ++ B).length := by
    have hne : A ++ B ≠ [] := by simp [hB]
    have hm := h.maxS hne
    change db.getMaxSeqNum = _ at hm
    rw [hmax] at hm
    have : ((A ++ B).map (·.seq)).getLast? = some mx := by rw [List.getLast?_map]; exact hm.symm
    rw [hn, List.getLast?_range'] at this
    have hpos : 0 < (A ++ B).length := List.length_pos_iff.2 hne
    simp only [Nat.ne_of_gt hpos, if_false, Option.some.injEq] at this
    omega
  unfold LogMgr.statKvs
  rw [ha]
  simp only
  rw [if_pos ⟨h1, h2, h3⟩]
  split <;> omega

/-- The records above the flush mark are those the log answers for. -/
theorem DBInv.above {S : TableSys K} {db : DB K S} {A B} (h : DBInv db A B) :
    (A ++ B).filter (fun r => db.getLastFlushedSeqNum.all (fun m => decide (m < r.seq))) = B := by
  by_cases hB : B = []
  · subst hB
    rw [List.append_nil, List.filter_eq_nil_iff]
    intro r hr
    obtain ⟨f, fs, hf⟩ := List.exists_cons_of_ne_nil h.log.ne
    have hm := h.log.mark f fs hf r hr
    have hfl : db.getLastFlushedSeqNum = some f.mem.flushedSeqNum := by
      unfold DB.getLastFlushedSeqNum LogMgr.getLastFlushedSeqNum
      have hfn : f.num = db.log.minNum := by unfold LogMgr.minNum; rw [hf]
      rw [h.log.getLastFlushedLog_eq, ← hfn, h.log.file?_mem (by rw [hf]; simp)]
      simp only
      rw [if_neg hm.1]
    rw [hfl]
    simp only [Option.all_some, decide_eq_true_eq]
    omega
  · obtain ⟨mn, mx, ha, h1, h2, h3, h4, hmax, hA, hmn⟩ := h.log_window hB
    rw [List.filter_append]
    cases hfl : db.getLastFlushedSeqNum with
    | none =>
      rw [hfl] at hmn
      have : A = [] := by
        cases A with
        | nil => rfl
        | cons r rs => have := hA r (by simp); simp only at hmn; omega
      subst this
      simp
    | some m =>
      rw [hfl] at hmn
      simp only [Option.all_some] at hmn ⊢
      have e1 : A.filter (fun r => decide (m < r.seq)) = [] := by
        rw [List.filter_eq_nil_iff]
        intro r hr
        have := hA r hr
        simp only [decide_eq_true_eq]; omega
      have e2 : B.filter (fun r => decide (m < r.seq)) = B := by
        rw [List.filter_eq_self]
        intro r hr
        have := (h4 r hr).1
        simp only [decide_eq_true_eq]; omega
      rw [e1, e2, List.nil_append]

/-- Keys without repetition that all occur in the lists are no more than these hold together. -/
theorem keys_le {ks : List K} (hn : ks.Nodup) {L : List K} (hs : ∀ k ∈ ks, k ∈ L) : ks.length ≤ L.length :=
  (List.subperm_of_subset hn hs).length_le

theorem foldl_min_le (l : List (Tab K)) (m : Nat) :
    (l.foldl (fun m x => min x.number m) m ≤ m) ∧ (∀ x ∈ l, l.foldl (fun m x => min x.number m) m ≤ x.number) ∧
    (l.foldl (fun m x => min x.number m) m = m ∨ ∃ x ∈ l, l.foldl (fun m x => min x.number m) m = x.number) := by
  induction l generalizing m with
  | nil => exact ⟨Nat.le_refl _, fun x hx => absurd hx (by simp), Or.inl rfl⟩
  | cons y ys ih =>
    obtain ⟨a, b, d⟩ := ih (min y.number m)
    simp only [List.foldl_cons]
    refine ⟨by omega, ?_, ?_⟩
    · intro x hx
      rcases List.mem_cons.1 hx with rfl | hx
      · omega
      · exact b x hx
    · rcases d with d | ⟨x, hx, d⟩
      · by_cases hy : y.number ≤ m
        · exact Or.inr ⟨y, by simp, by rw [d]; omega⟩
        · exact Or.inl (by rw [d]; omega)
      · exact Or.inr ⟨x, List.mem_cons_of_mem _ hx, d⟩

theorem le_foldl_max (l : List (Tab K)) (m : Nat) :
    (m ≤ l.foldl (fun m x => max x.number m) m) ∧ (∀ x ∈ l, x.number ≤ l.foldl (fun m x => max x.number m) m) ∧
    (l.foldl (fun m x => max x.number m) m = m ∨ ∃ x ∈ l, l.foldl (fun m x => max x.number m) m = x.number) := by
  induction l generalizing m with
  | nil => exact ⟨Nat.le_refl _, fun x hx => absurd hx (by simp), Or.inl rfl⟩
  | cons y ys ih =>
    obtain ⟨a, b, d⟩ := ih (max y.number m)
    simp only [List.foldl_cons]
    refine ⟨by omega, ?_, ?_⟩
    · intro x hx
      rcases List.mem_cons.1 hx with rfl | hx
      · omega
      · exact b x hx
    · rcases d with d | ⟨x, hx, d⟩
      · by_cases hy : m ≤ y.number
        · exact Or.inr ⟨y, by simp, by rw [d]; omega⟩
        · exact Or.inl (by rw [d]; omega)
      · exact Or.inr ⟨x, List.mem_cons_of_mem _ hx, d⟩

end Jungle
