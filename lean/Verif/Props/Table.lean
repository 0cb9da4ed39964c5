/-
  The table section: C23 (compaction), C24 (split and merge), C38 (hash partitions), and the
  key-value contract C01, C02, C06 with the concrete tables in place of the abstract ones.
-/
import Mathlib.Order.Nat
import Verif.Table.Lsm
import Verif.Props.KV

set_option linter.unusedSectionVars false

namespace Jungle
open Spec TMgr
variable {K : Type} [LinearOrder K] [OrderBot K]

/-- States of the table section after a number of flushes and maintenance operations; `h` lists
    the records flushed so far, oldest first. -/
inductive TReach (c : TCfg K) (parts : Nat) : TMgr K → List (Rec K) → Prop
  | init : TReach c parts (TMgr.init parts) []
  | flush {t h} (R : List (Rec K)) : TReach c parts t h → TReach c parts (t.setBatch c R) (h ++ R)
  | maint {t t' h} : TReach c parts t h → TMgr.Maint c t t' → TReach c parts t' h

theorem TReach.inv {c : TCfg K} {parts : Nat} (hp : 0 < parts) {t : TMgr K} {h : List (Rec K)}
    (hr : TReach c parts t h) : Inv c t ∧ ∀ k, vis (t.get c k) = vis (lastWrite h k) := by
  induction hr with
  | init =>
    refine ⟨inv_init c hp, fun k => ?_⟩
    rw [get_init c hp, lastWrite_nil]
  | flush R _ ih =>
    obtain ⟨h1, h2, h3⟩ := setBatch_ok ih.1 R
    refine ⟨h1, fun k => ?_⟩
    rw [h3 k, lastWrite_append]
    exact vis_or (ih.2 k)
  | maint _ hm ih =>
    have h1 := hm.same ih.1
    exact ⟨h1.inv, fun k => (h1.vis k).trans (ih.2 k)⟩

/-- The tables answer with the last record flushed, whatever was compacted, split or merged in
    between: nothing for a key whose last record is a deletion. -/
theorem C23_tables_hold_last_flushed {c : TCfg K} {parts : Nat} (hp : 0 < parts) {t : TMgr K}
    {h : List (Rec K)} (hr : TReach c parts t h) (k : K) :
    vis (t.get c k) = vis (lastWrite h k) := (hr.inv hp).2 k

/-- C23: compaction between levels (complete or cancelled), in place and out of level 0 changes no
    answer. -/
theorem C23_compaction_invisible {c : TCfg K} {parts : Nat} (hp : 0 < parts) {t : TMgr K}
    {h : List (Rec K)} (hr : TReach c parts t h) (k : K) :
    (∀ p < t.parts, vis ((t.compactL0Begin p).get c k) = vis (t.get c k)) ∧
    (∀ p < t.parts, ∀ full, vis ((t.compactL0End c p full).get c k) = vis (t.get c k)) ∧
    (∀ i n full refill, vis ((t.compactLevel c i n full refill).get c k) = vis (t.get c k)) ∧
    (∀ i n pres, vis ((t.compactInPlaceOp i n pres).get c k) = vis (t.get c k)) := by
  have hi := (hr.inv hp).1
  exact ⟨fun p hpp => (compactL0Begin_same hi hpp).vis k, fun p hpp full => (compactL0End_same hi hpp full).vis k,
    fun i n full refill => (compactLevel_same hi i n full refill).vis k,
    fun i n pres => (compactInPlaceOp_same hi i n pres).vis k⟩

/-- C23, crash points: a compaction that stops anywhere before the manifest is stored, followed by
    a new start, changes no answer. -/
theorem C23_crash_during_compaction {c : TCfg K} {parts : Nat} (hp : 0 < parts) {t : TMgr K}
    {h : List (Rec K)} (hr : TReach c parts t h) (k : K) :
    (∀ p < t.parts, ∀ full done,
      vis ((t.compactL0Cancel c p full done).reopen.get c k) = vis (t.get c k)) ∧
    (∀ i n full done,
      vis ((t.compactLevelCancel c i n full done).reopen.get c k) = vis (t.get c k)) := by
  have hi := (hr.inv hp).1
  refine ⟨fun p hpp full done => ?_, fun i n full done => ?_⟩
  · have h1 := compactL0Cancel_same hi hpp full done
    exact ((reopen_same h1.inv).vis k).trans (h1.vis k)
  · have h1 := compactLevelCancel_same hi i n full done
    exact ((reopen_same h1.inv).vis k).trans (h1.vis k)

/-- C23 seen through the handle: with the concrete tables, compaction changes no answer of `get`. -/
theorem C23_get_unchanged {c : TCfg K} {parts : Nat} {hp : 0 < parts}
    {db : DB K (Lsm c parts hp)} {h : List (Rec K)} (hr : Reach db h) (hc : db.closing = false)
    {t' : TMgr K} (hm : TMgr.Maint c db.table t') (k : K) :
    DB.get (S := Lsm c parts hp) { db with table := t' } k = db.get k := by
  rw [C01_get_returns_latest_write hr hc,
    C01_get_returns_latest_write (Reach.maint hr hm) hc]

/-- C01 with the concrete tables. -/
theorem C01_lsm {c : TCfg K} {parts : Nat} {hp : 0 < parts} {db : DB K (Lsm c parts hp)}
    {h : List (Rec K)} (hr : Reach db h) (hc : db.closing = false) (k : K) :
    db.get k = Spec.answer h k := C01_get_returns_latest_write hr hc k

/-- C02 with the concrete tables. -/
theorem C02_lsm {c : TCfg K} {parts : Nat} {hp : 0 < parts} {db : DB K (Lsm c parts hp)}
    {h h' : List (Rec K)} {d : Rec K} (hr : Reach db (h ++ d :: h')) (hd : d.isDel = true)
    (hno : ∀ r ∈ h', r.key = d.key → r.isIns = false) :
    (db.get d.key).2 = none ∧ (db.getRecordByKey d.key).2 = none :=
  C02_deleted_stays_deleted hr hd hno

/-- C24: split and merge change no answer. -/
theorem C24_split_merge_invisible {c : TCfg K} {parts : Nat} (hp : 0 < parts) {t : TMgr K}
    {h : List (Rec K)} (hr : TReach c parts t h) (k : K) :
    (∀ i n cut, vis ((t.splitOp i n cut).get c k) = vis (t.get c k)) ∧
    (∀ i n, vis ((t.mergeOp c i n).get c k) = vis (t.get c k)) := by
  have hi := (hr.inv hp).1
  exact ⟨fun i n cut => (splitOp_same hi i n cut).vis k, fun i n => (mergeOp_same hi i n).vis k⟩

/-- C24: in every level above 0 the tables have different lower bounds, and a stored key lies in
    the table with the greatest lower bound not above it. -/
theorem C24_ranges {c : TCfg K} {parts : Nat} (hp : 0 < parts) {t : TMgr K}
    {h : List (Rec K)} (hr : TReach c parts t h) {l : List (Tab K)} (hl : l ∈ t.lv) :
    l.Pairwise (fun a b => a.minKey < b.minKey) ∧
    ∀ x ∈ l, ∀ k, (x.get k).isSome →
      x.minKey ≤ k ∧ ∀ y ∈ l, y.minKey ≤ k → y.minKey ≤ x.minKey := by
  have hok := (hr.inv hp).1.lv l hl
  refine ⟨hok.sorted, ?_⟩
  intro x hx k hk
  obtain ⟨r, hg⟩ := Option.isSome_iff_exists.1 hk
  have hm := SMap.find?_some_mem hg
  refine ⟨((hok.tab x hx).2.1 _ hm).2, ?_⟩
  intro y hy hyk
  by_contra hlt
  exact absurd hyk (not_le_of_gt (hok.range x hx y hy (lt_of_not_ge hlt) _ hm))

/-- C24: table numbers are not shared: two tables of the same level are different files. -/
theorem C24_numbers {c : TCfg K} {parts : Nat} (hp : 0 < parts) {t : TMgr K}
    {h : List (Rec K)} (hr : TReach c parts t h) {l : List (Tab K)} (hl : l ∈ t.lv) :
    (l.map (·.number)).Nodup ∧ ∀ x ∈ l, x.number < t.nextNum :=
  ⟨((hr.inv hp).1.lv l hl).nums, (hr.inv hp).1.lvNum l hl⟩

/-- C38: a record stored in level 0 lies in a table of the partition its key hashes to, and every
    partition has exactly one table that takes new records. -/
theorem C38_partition_of_stored {c : TCfg K} {parts : Nat} (hp : 0 < parts) {t : TMgr K}
    {h : List (Rec K)} (hr : TReach c parts t h) :
    (∀ x ∈ t.l0, ∀ k, (x.get k).isSome → x.hashNum = c.hash k % t.parts) ∧
    (∀ p < t.parts, ∃ x ∈ t.l0, (x.hashNum = p ∧ x.status = .normal) ∧
      ∀ y ∈ t.l0, y.hashNum = p ∧ y.status = .normal → y = x) := by
  have hi := (hr.inv hp).1
  constructor
  · intro x hx k hk
    obtain ⟨r, hg⟩ := Option.isSome_iff_exists.1 hk
    exact ((hi.l0Recs x hx).2 _ (SMap.find?_some_mem hg)).2.symm
  · intro p hpp
    obtain ⟨x, h1, h2, h3⟩ := hi.normEx p hpp
    exact ⟨x, h1, ⟨h2, h3⟩, fun y hy hyp => hi.uniq y hy x h1 (by rw [hyp.1, h2]) (by rw [hyp.2, h3])⟩

/-- C38: what was just flushed is found, whatever the hash function and the number of
    partitions. -/
theorem C38_flushed_is_found {c : TCfg K} {parts : Nat} (hp : 0 < parts) {t : TMgr K}
    {h : List (Rec K)} (hr : TReach c parts t h) (r : Rec K) (hc : r.isCmd = false) :
    (t.setBatch c [r]).get c r.key = some r := by
  rw [(setBatch_ok (hr.inv hp).1 [r]).2.2]
  have : lastWrite [r] r.key = some r := by simp [lastWrite, hc]
  rw [this]; rfl

/-- C38: changing the number of partitions on open changes no answer, provided no level-0 table
    is left over from an unfinished compaction. -/
theorem C38_repartition_partial {c : TCfg K} {parts : Nat} (hp : 0 < parts) {t : TMgr K}
    {h : List (Rec K)} (hr : TReach c parts t h) {n : Nat} (hn : 0 < n)
    (hno : ∀ x ∈ t.l0, x.status = .normal) (full : Nat → Bool) (k : K) :
    vis ((t.adjustL0 c n full).get c k) = vis (t.get c k) :=
  (adjustL0_same (hr.inv hp).1 hn hno full).vis k

/-! ### Witnesses and violations -/

namespace TableEx

def c : TCfg Nat := { hash := fun k => k }
def ins (s k : Nat) (v : UInt8) : Rec Nat := { seq := s, type := .insertion, key := k, val := [v] }
def del (s k : Nat) : Rec Nat := { seq := s, type := .deletion, key := k }

/-- Two partitions; records flushed, compacted to level 1 over two tables, one table sent to
    level 2, a deletion flushed on top. -/
def t1 : TMgr Nat :=
  let t := (TMgr.init 2 : TMgr Nat).setBatch c [ins 1 1 10, ins 2 4 20, ins 3 5 30, ins 4 7 40]
  let t := (t.compactL0Begin 1).compactL0End c 1 (fun i => i == 1)
  let t := (t.compactL0Begin 0).compactL0End c 0 (fun _ => false)
  let t := t.compactLevel c 0 0 (fun _ => false) false
  t.setBatch c [del 5 5]

theorem t1_reach : TReach c 2 t1
    ([ins 1 1 10, ins 2 4 20, ins 3 5 30, ins 4 7 40] ++ [del 5 5]) := by
  refine TReach.flush _ (TReach.maint (TReach.maint (TReach.maint (TReach.maint (TReach.maint
    (TReach.flush (h := []) _ TReach.init) (.l0Begin _ 1 ?_)) (.l0End _ 1 _ ?_)) (.l0Begin _ 0 ?_))
    (.l0End _ 0 _ ?_)) (.level _ 0 0 _ _)) <;> decide

example : t1.get c 4 = some (ins 2 4 20) ∧ (t1.get c 5) = some (del 5 5) ∧
    t1.lv.map (fun l => l.map (fun x => (x.number, x.minKey, x.recs.map (·.1)))) =
      [[], [(3, 0, [1, 4]), (4, 5, [5, 7])]] := by decide

example : vis (t1.get c 5) = none := by
  rw [C23_tables_hold_last_flushed (by decide) t1_reach]; decide

/-- `t1` continued: the deletion goes down to level 1, then on to level 2, which is the last one,
    where it removes the old record; level 2 is split. -/
def t2a : TMgr Nat := t1.compactL0Begin 1
def t2b : TMgr Nat := t2a.compactL0End c 1 (fun _ => false)
def t2 : TMgr Nat := t2b.compactLevel c 0 7 (fun _ => false) true

theorem t2_reach : TReach c 2 t2
    ([ins 1 1 10, ins 2 4 20, ins 3 5 30, ins 4 7 40] ++ [del 5 5]) := by
  have h1 : TReach c 2 t2a _ := TReach.maint t1_reach (.l0Begin t1 1 (by decide))
  have h2 : TReach c 2 t2b _ := TReach.maint h1 (.l0End t2a 1 (fun _ => false) (by decide))
  exact TReach.maint h2 (.level t2b 0 7 (fun _ => false) true)

example : t2.lv.map (fun l => l.map (fun x => (x.number, x.minKey, x.recs.map (·.1)))) =
      [[(8, 0, [])], [(3, 0, [1, 4]), (4, 5, [7])]] ∧ t2.get c 5 = none ∧
      t2.get c 7 = some (ins 4 7 40) := by decide

/-- Splitting and merging back. -/
example :
    (t2.splitOp 1 3 (fun _ => true)).lv.map (fun l => l.map (fun x => (x.number, x.minKey, x.recs.map (·.1)))) =
      [[(8, 0, [])], [(9, 0, [1]), (10, 4, [4]), (4, 5, [7])]] ∧
    (t2.mergeOp c 1 4).lv.map (fun l => l.map (fun x => (x.number, x.minKey, x.recs.map (·.1)))) =
      [[(8, 0, [])], [(3, 0, [1, 4, 7])]] := by decide

example : ((t2.splitOp 1 3 (fun _ => true)).get c 4).map (·.val) = some [20] := by
  have := (C24_split_merge_invisible (by decide) t2_reach 4).1 1 3 (fun _ => true)
  decide

/-- A partition count that changes from 2 to 3. -/
example : (t2.adjustL0 c 3 (fun _ => false)).parts = 3 ∧
    vis ((t2.adjustL0 c 3 (fun _ => false)).get c 7) = some (ins 4 7 40) :=
  ⟨by decide, (C38_repartition_partial (by decide) t2_reach (by decide) (by decide) _ 7).trans (by decide)⟩

/-- C24 fails across a crash: `mergeLevel` writes the records into the neighbour before the
    manifest forgets the victim.  After a crash in between, both tables have the key, the lookup
    takes this for an error, and the caller gets OK with an empty record. -/
theorem C24_crash_in_merge_violation :
    ∃ (t : TMgr Nat) (h : List (Rec Nat)) (i n k : Nat) (r : Rec Nat), TReach c 2 t h ∧
      lastWrite h k = some r ∧ r.isIns = true ∧ r.val = [40] ∧ t.get c k = some r ∧
      ((t.mergeOpCrash c i n).reopen.get c k).map (·.val) = some [] := by
  exact ⟨t1, _, 1, 4, 7, ins 4 7 40, t1_reach, by decide, by decide, by decide, by decide, by decide⟩

/-- Two versions of a key in a partition whose compaction was begun but not finished. -/
def t3 : TMgr Nat :=
  (((TMgr.init 1 : TMgr Nat).setBatch c [ins 1 1 10]).compactL0Begin 0).setBatch c [ins 2 1 20]

theorem t3_reach : TReach c 1 t3 ([ins 1 1 10] ++ [ins 2 1 20]) :=
  TReach.flush _ (TReach.maint (TReach.flush (h := []) _ TReach.init) (.l0Begin _ 0 (by decide)))

/-- C38 fails for a change of the partition count with a compaction left unfinished: opening the
    database twice turns the order of the two tables around, the newer one is compacted first and
    the older one overwrites it. -/
theorem C38_repartition_violation :
    ∃ (t : TMgr Nat) (h : List (Rec Nat)) (k : Nat) (old new : Rec Nat), TReach c 1 t h ∧
      lastWrite h k = some new ∧ t.get c k = some new ∧ old.seq < new.seq ∧
      (t.reopen.reopen.adjustL0 c 2 (fun _ => false)).get c k = some old := by
  exact ⟨t3, _, 1, ins 1 1 10, ins 2 1 20, t3_reach, by decide, by decide, by decide, by decide⟩

/-! The log and the concrete tables together: two writes, a flush, a compaction of partition 1,
    a deletion. -/

abbrev S2 : TableSys Nat := Lsm c 2 (by decide)
def d0 : DB Nat S2 := DB.init _ {}
def d1 := (d0.set 5 [1]).2
def d2 := (d1.set 6 [2]).2
def d3 := d2.sync.2
def d4 := (d3.flushLogs {} NIL).2
def d5 : DB Nat S2 := { d4 with table := TMgr.compactL0Begin d4.table 1 }
def d6 : DB Nat S2 := { d5 with table := TMgr.compactL0End c d5.table 1 (fun _ => false) }
def d7 := (d6.del 5).2

theorem r0 : Reach d0 [] := Reach.init _ ⟨rfl, rfl, rfl, by decide⟩
theorem r1 : Reach d1 ([] ++ [{ seq := 1, type := .insertion, key := 5, val := [1] }]) :=
  Reach.set (db' := d1) { seq := NIL, type := .insertion, key := 5, val := [1] } false r0
    (by unfold DB.Fits; decide) (Or.inl rfl) (fun _ => rfl) (by rfl)
def h2 : List (Rec Nat) := [{ seq := 1, type := .insertion, key := 5, val := [1] },
  { seq := 2, type := .insertion, key := 6, val := [2] }]
theorem r2 : Reach d2 h2 :=
  Reach.set (db' := d2) { seq := NIL, type := .insertion, key := 6, val := [2] } false r1
    (by unfold DB.Fits; decide) (Or.inl rfl) (fun _ => rfl) (by rfl)
theorem r4 : Reach d4 h2 :=
  Reach.flush {} NIL (Reach.sync r2 (db' := d3) (st := .ok) rfl) rfl (Or.inl rfl) (st := .ok) (by rfl)
theorem r6 : Reach d6 h2 :=
  Reach.maint (Reach.maint r4 (TMgr.Maint.l0Begin d4.table 1 (by decide)))
    (TMgr.Maint.l0End d5.table 1 (fun _ => false) (by decide))
theorem r7 : Reach d7 (h2 ++ [{ seq := 3, type := .deletion, key := 5 }]) :=
  Reach.set (db' := d7) { seq := NIL, type := .deletion, key := 5 } false r6
    (by unfold DB.Fits; decide) (Or.inl rfl) (fun _ => rfl) (by rfl)

example : (TMgr.get c d6.table 5).map (·.val) = some [1] ∧ d6.log.files.length = 1 ∧
    (d6.table : TMgr Nat).lv.map (fun l => l.map (fun x => x.recs.map (·.1))) = [[[5]]] := by decide
example : d6.get 5 = (.ok, some [1]) ∧ d7.get 5 = (.keyNotFound, none) := by
  rw [C01_lsm r6 rfl, C01_lsm r7 rfl]; decide
example (k : Nat) : d6.get k = d5.get k :=
  C23_get_unchanged (Reach.maint r4 (TMgr.Maint.l0Begin d4.table 1 (by decide))) rfl
    (TMgr.Maint.l0End d5.table 1 (fun _ => false) (by decide)) k

end TableEx
end Jungle
