/-
  Snapshots and checkpoints: C03 (a snapshot shows the state at its number and keeps showing it),
  C15 (the listed checkpoints).
-/
import Mathlib.Order.Nat
import Verif.DB.SnapOpen
import Verif.DB.SnapKept
import Verif.DB.SnapScript

set_option linter.unusedSectionVars false

namespace Jungle
open Spec
variable {K : Type} [LinearOrder K] [OrderBot K] {c : TCfg K} {parts : Nat} {hp : 0 < parts} {keep : Nat}
variable {db db' : DB K (LsmC c parts hp keep)} {cs : List PMani} {h h' : List (Rec K)} {n m : Nat} {sn sn' : Snap K}

/-- The number of the snapshot opened with argument `m`: `0` asks for the latest state. -/
def DB.snapNum (db : DB K (LsmC c parts hp keep)) (m : Nat) : Nat := if m = 0 then db.getMaxSeqNum.getD 0 else m

/-- The part of a history with numbers up to `s`. -/
def Spec.until (h : List (Rec K)) (s : Nat) : List (Rec K) := h.filter (fun r => decide (r.seq ≤ s))

/-- C03, partial: in every reachable state, a snapshot with a number `s` above the last flushed one
    answers every `get` by the newest version of the key with a number up to `s`, after any writes,
    batches, syncs, flushes, log-file removals and checkpoints on the parent.  Missing: numbers that
    are already flushed (`C03_latest_partial`, `C03_flushed_partial` and the four violations), table
    maintenance while the snapshot is open (`C03_compaction_violation`). -/
theorem C03_snapshot_partial (hr : PReach ⟨db, cs⟩ h n) (ho : db.openSnapshot m = (.ok, some sn))
    (hm : db.getLastFlushedSeqNum.getD 0 < db.snapNum m)
    (ha : Acts db h sn db' h' sn') (hc : db'.check .read = .ok) (k : K) :
    db'.snapGet sn' k = answer (Spec.until h (db.snapNum m)) k :=
  snap_unflushed hr ho hm ha hc k

/-- C03, partial: a snapshot of the latest state shows that state, whatever the parent does later, or
    fails with SNAPSHOT_NOT_FOUND (which happens: `C03_empty_partition_violation`).  It never shows
    another value. -/
theorem C03_latest_partial (hr : PReach ⟨db, cs⟩ h n) (ho : db.openSnapshot 0 = (.ok, some sn))
    (ha : Acts db h sn db' h' sn') (hc : db'.check .read = .ok) (k : K) :
    db'.snapGet sn' k = answer h k ∨ db'.snapGet sn' k = (.snapshotNotFound, none) :=
  snap_latest hr ho ha hc k

/-- C03, partial: a snapshot of any listed checkpoint, flushed or not, taken while no level-0
    compaction is running and while the log file of the checkpoint exists, shows the state at the
    checkpoint or fails with SNAPSHOT_NOT_FOUND.  Missing: the cases of `C03_removed_log_violation` and
    `C03_l0_compaction_violation`. -/
theorem C03_flushed_partial (hr : PReach ⟨db, cs⟩ h n) (ho : db.openSnapshot m = (.ok, some sn)) (hm : m ≠ 0)
    (hlog : sn.logs ≠ none) (hnorm : ∀ x ∈ (db.table : CMgr K).tab.l0, x.status = .normal)
    (ha : Acts db h sn db' h' sn') (hc : db'.check .read = .ok) (k : K) :
    db'.snapGet sn' k = answer (Spec.until h m) k ∨ db'.snapGet sn' k = (.snapshotNotFound, none) :=
  snap_flushed hr ho hm hlog hnorm ha hc k

/-- C15, partial: the listed checkpoints ascend strictly, there are at most as many as configured, and
    each is the number of an accepted write. -/
theorem C15_listing (hr : PReach ⟨db, cs⟩ h n) (hc : db.check .read = .ok) :
    ∃ l, db.getCheckpoints = (.ok, l) ∧ l.Pairwise (· < ·) ∧ l.length ≤ keep ∧ ∀ m ∈ l, ∃ r ∈ h, r.seq = m := by
  obtain ⟨A, B, e, hi, hd⟩ := hr.dinv
  obtain ⟨all, h1, h2, -, h4⟩ := getCheckpoints_spec db hc
  refine ⟨_, h2, h1.sublist (List.drop_sublist _ _), by rw [List.length_drop]; omega, ?_⟩
  intro m hm
  subst e
  rcases h4 m (List.mem_of_mem_drop hm) with h5 | h5
  · obtain ⟨⟨f, hf, r, hr, hre, hB⟩, -⟩ := hd.availLog hi.inv.log h5
    exact ⟨r, List.mem_append_right _ hB, hre⟩
  · obtain ⟨r, hr, hre⟩ := hd.availTab h5
    exact ⟨r, List.mem_append_left _ hr, hre⟩

/-- C15, partial: a checkpoint that was taken and is not yet flushed is listed, unless as many newer
    ones as are kept are listed. -/
theorem C15_most_recent {db1 : DB K (LsmC c parts hp keep)} (hr : PReach ⟨db, cs⟩ h n)
    (ht : db.checkpoint = (.ok, db1, some m)) (hl : Later db1 h db' h') (hc : db'.check .read = .ok)
    (hm : db'.getLastFlushedSeqNum.getD 0 < m) :
    m ∈ db'.getCheckpoints.2 ∨ (db'.getCheckpoints.2.length = keep ∧ ∀ m' ∈ db'.getCheckpoints.2, m < m') := by
  obtain ⟨A, B, e, hi, hd⟩ := hr.dinv
  obtain ⟨hhas, -⟩ := checkpoint_has hi ht
  obtain ⟨cs1, n1, hr1⟩ := (Act.checkpoint ht).preach hr
  obtain ⟨⟨cs', n', hr'⟩, -, -, hk⟩ := hl.spec hr1 hhas
  obtain ⟨A', B', e', hi', hd'⟩ := hr'.dinv
  have hl' : LogInv db'.log A' B' := hi'.inv.log
  have hA : ∀ a ∈ A', a.seq < m := fun a ha => Nat.lt_of_le_of_lt (hl'.flushed_le a ha) hm
  have hav : m ∈ db'.log.getAvailCheckpoints := by
    rcases hk A' B' e' hi'.inv with h1 | ⟨a, ha, h1⟩
    · exact hd'.has_avail hl' h1 hA
    · have := hA a ha; omega
  obtain ⟨all, h1, h2, h3, -⟩ := getCheckpoints_spec db' hc
  rw [h2]
  have hm' := h3 m hav
  rw [← List.take_append_drop (all.length - keep) all] at hm' h1
  rcases List.mem_append.1 hm' with h4 | h4
  · right
    refine ⟨?_, fun m' hm' => (List.pairwise_append.1 h1).2.2 m h4 m' hm'⟩
    have : 0 < (all.take (all.length - keep)).length := List.length_pos_of_mem h4
    rw [List.length_take] at this
    show (all.drop _).length = keep
    rw [List.length_drop]
    omega
  · exact Or.inl h4

/-- C15, partial: a snapshot opened from a listed checkpoint that is not yet flushed shows, and goes on
    showing, the state at the time the checkpoint was taken. -/
theorem C15_shows {db1 db2 : DB K (LsmC c parts hp keep)} {h2 : List (Rec K)} (hr : PReach ⟨db, cs⟩ h n)
    (ht : db.checkpoint = (.ok, db1, some m)) (hl : Later db1 h db2 h2)
    (hm : db2.getLastFlushedSeqNum.getD 0 < m) (ho : db2.openSnapshot m = (.ok, some sn))
    (ha : Acts db2 h2 sn db' h' sn') (hc : db'.check .read = .ok) (k : K) :
    db'.snapGet sn' k = answer h k := by
  obtain ⟨A, B, e, hi, hd⟩ := hr.dinv
  obtain ⟨hhas, hmax⟩ := checkpoint_has hi ht
  obtain ⟨cs1, n1, hr1⟩ := (Act.checkpoint ht).preach hr
  obtain ⟨⟨cs', n', hr'⟩, ⟨N, hN, hnew⟩, -, -⟩ := hl.spec hr1 hhas
  obtain ⟨A1, B1, e1, hi1, -⟩ := hr1.dinv
  have hne : A ++ B ≠ [] := by
    intro h0
    have := hi.inv.max0 h0
    simp only [] at this
    rw [hmax] at this; cases this
  have hms := hi.inv.maxS hne
  have hne1 : A1 ++ B1 ≠ [] := by rw [← e1, e]; exact hne
  have hms1 := hi1.inv.maxS hne1
  simp only [] at hms hms1
  rw [← e1, e, ← hms, hmax] at hms1
  rw [hms1] at hnew
  have hm0 : m ≠ 0 := by omega
  have := C03_snapshot_partial hr' ho (by unfold DB.snapNum; rw [if_neg hm0]; exact hm) ha hc k
  rw [this]
  unfold DB.snapNum Spec.until
  rw [if_neg hm0, hN, List.filter_append, List.filter_eq_self.2, List.filter_eq_nil_iff.2, List.append_nil]
  · intro r hr''
    have := hnew r hr''
    simp at this ⊢; omega
  · intro r hr''
    have := (max_bound hi r (by rw [← e]; exact hr'')).1
    rw [hmax] at this
    simpa using this

/-- C15, partial: a checkpoint that was not yet flushed when it was taken is listed for good, unless as
    many newer ones as are kept are listed, whatever is written, synced, flushed or checkpointed later.
    Missing: a checkpoint taken when everything is flushed (`C15_flushed_state_violation`) and table
    compactions (`C15_compaction_violation`). -/
theorem C15_kept_partial {db1 : DB K (LsmC c parts hp keep)} (hr : PReach ⟨db, cs⟩ h n)
    (ht : db.checkpoint = (.ok, db1, some m)) (hm : db1.getLastFlushedSeqNum.getD 0 < m)
    (hl : Calls db1 h db' h') (hc : db'.check .read = .ok) :
    m ∈ db'.getCheckpoints.2 ∨ (db'.getCheckpoints.2.length = keep ∧ ∀ m' ∈ db'.getCheckpoints.2, m < m') := by
  obtain ⟨A, B, e, hi, hd⟩ := hr.dinv
  obtain ⟨hhas, -⟩ := checkpoint_has hi ht
  obtain ⟨cs1, n1, hr1⟩ := (Act.checkpoint ht).preach hr
  obtain ⟨cs', n', A', B', L, hr', e', hi', hd', hk⟩ := hl.kept hr1 hhas
    (fun A B _ hl a ha => Nat.lt_of_le_of_lt (hl.flushed_le a ha) hm)
  exact hk.listed hi' hd' (by omega) hc

/-! ### concrete cases -/
section
open MCmd SCmd

/-- Key `k` goes to partition `k` modulo the number of partitions. -/
def snapCfg : TCfg Nat := { hash := fun k => k, purge := true }
abbrev SnapDB (parts : Nat) (hp : 0 < parts) := DB Nat (LsmC snapCfg parts hp 10)
abbrev snapRun (parts : Nat) (hp : 0 < parts) (xs : List (MCmd Nat)) : Option (SnapDB parts hp × List (Rec Nat)) :=
  MCmd.start snapCfg parts hp 10 {} xs
theorem snapPlain : Cfg.Plain {} := ⟨rfl, rfl, rfl, by decide⟩

/-- A state with a flushed record and an unflushed checkpoint. -/
def snapS : SnapDB 1 (by decide) × List (Rec Nat) :=
  (snapRun 1 (by decide) [call (put 5 1), call (put 6 2), call sync, call flush, call (put 5 3), call checkpoint,
    call (put 5 4)]).get (by decide +kernel)
def snapSn : Snap Nat := (snapS.1.openSnapshot 3).2.get (by decide +kernel)
/-- Later: a write, a log file switch, a sync, a flush. -/
def snapE : SnapDB 1 (by decide) × List (Rec Nat) × Snap Nat :=
  (SCmd.run (snapS.1, snapS.2, snapSn) [put 6 5, put 5 6 true, sync, flush]).get (by decide +kernel)

theorem snapE_acts : Acts snapS.1 snapS.2 snapSn snapE.1 snapE.2.1 snapE.2.2 :=
  SCmd.run_acts (s := (snapS.1, snapS.2, snapSn)) Acts.refl (Option.some_get _).symm

example : (∃ cs n, PReach ⟨snapS.1, cs⟩ snapS.2 n) ∧ snapS.1.openSnapshot 3 = (.ok, some snapSn) ∧
    snapS.1.getLastFlushedSeqNum.getD 0 < snapS.1.snapNum 3 ∧
    Acts snapS.1 snapS.2 snapSn snapE.1 snapE.2.1 snapE.2.2 ∧ snapE.1.check .read = .ok ∧
    snapE.1.snapGet snapE.2.2 5 = (.ok, some [3]) ∧ snapE.1.snapGet snapE.2.2 6 = (.ok, some [2]) := by
  refine ⟨MCmd.start_reach snapPlain (Option.some_get _).symm, ?_, by decide +kernel, snapE_acts, by decide +kernel,
    by decide +kernel, by decide +kernel⟩
  exact Prod.ext (by decide +kernel) (Option.some_get _).symm

/-- The latest state is opened, then overwritten and flushed. -/
def snapLt : Snap Nat := (snapS.1.openSnapshot 0).2.get (by decide +kernel)
def snapLtE : SnapDB 1 (by decide) × List (Rec Nat) × Snap Nat :=
  (SCmd.run (snapS.1, snapS.2, snapLt) [put 5 9, sync, flush]).get (by decide +kernel)
example : snapS.1.openSnapshot 0 = (.ok, some snapLt) ∧ snapLtE.1.check .read = .ok ∧
    Acts snapS.1 snapS.2 snapLt snapLtE.1 snapLtE.2.1 snapLtE.2.2 ∧
    snapLtE.1.snapGet snapLtE.2.2 5 = (.ok, some [4]) := by
  refine ⟨Prod.ext (by decide +kernel) (Option.some_get _).symm, by decide +kernel, ?_, by decide +kernel⟩
  exact SCmd.run_acts (s := (snapS.1, snapS.2, snapLt)) Acts.refl (Option.some_get _).symm

/-- A checkpoint that is in the tables; the log file is still there. -/
def snapF : SnapDB 1 (by decide) × List (Rec Nat) :=
  (snapRun 1 (by decide) [call (put 5 1), call checkpoint, call (put 5 2), call sync, call flush]).get (by decide +kernel)
def snapFSn : Snap Nat := (snapF.1.openSnapshot 1).2.get (by decide +kernel)
example : (∃ cs n, PReach ⟨snapF.1, cs⟩ snapF.2 n) ∧ snapF.1.openSnapshot 1 = (.ok, some snapFSn) ∧
    snapFSn.logs.isSome = true ∧ (∀ x ∈ (CMgr.tab (snapF.1.table : CMgr Nat)).l0, x.status = .normal) ∧
    snapF.1.snapGet snapFSn 5 = (.ok, some [1]) := by
  refine ⟨MCmd.start_reach snapPlain (Option.some_get _).symm, ?_, by decide +kernel, by decide +kernel, by decide +kernel⟩
  exact Prod.ext (by decide +kernel) (Option.some_get _).symm

/-- Two checkpoints, one in the tables, one in the log. -/
example : snapS.1.getCheckpoints = (.ok, [3]) ∧
    (snapRun 1 (by decide) [call (put 5 1), call checkpoint, call (put 5 2), call sync, call flush, call (put 5 3), call checkpoint]).map
      (fun s => s.1.getCheckpoints) = some (.ok, [1, 3]) := by decide +kernel

/-- A checkpoint is taken, then there are a write, a log file switch and table maintenance; the
    checkpoint is listed, opened and shows the state it was taken in, also after it is flushed. -/
def snapC : SnapDB 1 (by decide) × List (Rec Nat) :=
  (snapRun 1 (by decide) [call (put 5 1), call sync, call flush, call (put 5 2)]).get (by decide +kernel)
def snapC1 : SnapDB 1 (by decide) := snapC.1.checkpoint.2.1
def snapC2 : SnapDB 1 (by decide) × List (Rec Nat) := (SCmd.exec (snapC1, snapC.2) (put 5 3 true)).get (by decide +kernel)
def snapC3 : SnapDB 1 (by decide) :=
  { snapC2.1 with table := (⟨TMgr.compactL0Begin (CMgr.tab (snapC2.1.table : CMgr Nat)) 0, CMgr.marks (snapC2.1.table : CMgr Nat)⟩ : CMgr Nat) }
def snapCSn : Snap Nat := (snapC3.openSnapshot 2).2.get (by decide +kernel)
def snapCE : SnapDB 1 (by decide) × List (Rec Nat) × Snap Nat :=
  (SCmd.run (snapC3, snapC2.2, snapCSn) [put 5 4, sync, flush]).get (by decide +kernel)
example : (∃ cs n, PReach ⟨snapC.1, cs⟩ snapC.2 n) ∧ snapC.1.checkpoint = (.ok, snapC1, some 2) ∧
    Later snapC1 snapC.2 snapC3 snapC2.2 ∧ snapC3.check .read = .ok ∧ snapC3.getLastFlushedSeqNum.getD 0 < 2 ∧
    2 ∈ snapC3.getCheckpoints.2 ∧ snapC3.openSnapshot 2 = (.ok, some snapCSn) ∧
    Acts snapC3 snapC2.2 snapCSn snapCE.1 snapCE.2.1 snapCE.2.2 ∧ snapCE.1.check .read = .ok ∧
    snapCE.1.snapGet snapCE.2.2 5 = (.ok, some [2]) := by
  refine ⟨MCmd.start_reach snapPlain (Option.some_get _).symm, ?_, ?_, by decide +kernel, by decide +kernel, by decide +kernel, ?_, ?_,
    by decide +kernel, by decide +kernel⟩
  · refine Prod.ext (by decide +kernel) (Prod.ext rfl (by decide +kernel))
  · refine Later.maint (Later.call Later.refl ?_) (CMgr.Maint.l0Begin _ 0 (by decide +kernel))
    exact SCmd.exec_act (s := (snapC1, snapC.2)) (x := put 5 3 true) (Option.some_get _).symm
  · exact Prod.ext (by decide +kernel) (Option.some_get _).symm
  · exact SCmd.run_acts (s := (snapC3, snapC2.2, snapCSn)) Acts.refl (Option.some_get _).symm

/-- Three checkpoints, all flushed, with room for two: the two newest are listed. -/
def keptC : DB Nat (LsmC snapCfg 2 (by decide) 2) × List (Rec Nat) :=
  (MCmd.start snapCfg 2 (by decide) 2 {} [call (put 5 1), call sync, call flush, call (put 5 2)]).get (by decide +kernel)
def keptC1 : DB Nat (LsmC snapCfg 2 (by decide) 2) := keptC.1.checkpoint.2.1
/-- Run calls. -/
def SCmd.calls {keep parts : Nat} {hp : 0 < parts} (s : DB Nat (LsmC snapCfg parts hp keep) × List (Rec Nat)) :
    List (SCmd Nat) → Option (DB Nat (LsmC snapCfg parts hp keep) × List (Rec Nat))
  | [] => some s
  | x :: xs => (SCmd.exec s x).bind (fun s' => SCmd.calls s' xs)
theorem SCmd.calls_ok {keep parts : Nat} {hp : 0 < parts} {db : DB Nat (LsmC snapCfg parts hp keep)} {h : List (Rec Nat)} :
    ∀ {xs : List (SCmd Nat)} {s s' : DB Nat (LsmC snapCfg parts hp keep) × List (Rec Nat)},
    Calls db h s.1 s.2 → SCmd.calls s xs = some s' → Calls db h s'.1 s'.2 := by
  intro xs
  induction xs with
  | nil => intro s s' ha he; cases he; exact ha
  | cons x xs ih =>
    intro s s' ha he
    cases hx : SCmd.exec s x with
    | none => rw [SCmd.calls, hx] at he; cases he
    | some s1 => rw [SCmd.calls, hx] at he; exact ih (Calls.call ha (SCmd.exec_act hx)) he
def keptE : DB Nat (LsmC snapCfg 2 (by decide) 2) × List (Rec Nat) :=
  (SCmd.calls (keptC1, keptC.2) [sync, flush]).get (by decide +kernel)
def keptF : DB Nat (LsmC snapCfg 2 (by decide) 2) × List (Rec Nat) :=
  (SCmd.calls (keptC1, keptC.2) [sync, flush, put 4 3, checkpoint, put 5 4, checkpoint, flush]).get (by decide +kernel)
example : (∃ cs n, PReach ⟨keptC.1, cs⟩ keptC.2 n) ∧ keptC.1.checkpoint = (.ok, keptC1, some 2) ∧
    keptC1.getLastFlushedSeqNum.getD 0 < 2 ∧ Calls keptC1 keptC.2 keptE.1 keptE.2 ∧ Calls keptC1 keptC.2 keptF.1 keptF.2 ∧
    keptE.1.check .read = .ok ∧ keptE.1.getLastFlushedSeqNum = some 2 ∧ keptE.1.getCheckpoints.2 = [2] ∧
    keptF.1.check .read = .ok ∧ keptF.1.getLastFlushedSeqNum = some 4 ∧ keptF.1.getCheckpoints.2 = [3, 4] := by
  refine ⟨MCmd.start_reach snapPlain (Option.some_get _).symm, ?_, by decide +kernel, ?_, ?_, by decide +kernel, by decide +kernel,
    by decide +kernel, by decide +kernel, by decide +kernel, by decide +kernel⟩
  · exact Prod.ext (by decide +kernel) (Prod.ext rfl (by decide +kernel))
  · exact SCmd.calls_ok (s := (keptC1, keptC.2)) Calls.refl (Option.some_get _).symm
  · exact SCmd.calls_ok (s := (keptC1, keptC.2)) Calls.refl (Option.some_get _).symm

/-- C15 violation: a checkpoint taken when everything is flushed succeeds, is not listed and cannot be
    opened. -/
theorem C15_flushed_state_violation : ∃ (db db1 : SnapDB 1 (by decide)) (h : List (Rec Nat)),
    (∃ cs n, PReach ⟨db, cs⟩ h n) ∧ db.checkpoint = (.ok, db1, some 1) ∧ db1.check .read = .ok ∧
    db1.getCheckpoints = (.ok, []) ∧ (db1.openSnapshot 1).1 = .invalidCheckpoint := by
  let s := (snapRun 1 (by decide) [call (put 5 1), call sync, call flush]).get (by decide +kernel)
  refine ⟨s.1, s.1.checkpoint.2.1, s.2, MCmd.start_reach snapPlain (Option.some_get _).symm, ?_, ?_, ?_, ?_⟩
  · exact Prod.ext (by decide +kernel) (Prod.ext rfl (by decide +kernel))
  all_goals decide +kernel

/-- C15 violation: a listed checkpoint, the only one, is gone after a level-0 compaction. -/
theorem C15_compaction_violation : ∃ (db : SnapDB 1 (by decide)) (h : List (Rec Nat)) (t t' : CMgr Nat),
    (∃ cs n, PReach ⟨db, cs⟩ h n) ∧ db.getCheckpoints = (.ok, [1]) ∧
    (LsmC snapCfg 1 (by decide) 10).maint db.table t ∧ (LsmC snapCfg 1 (by decide) 10).maint t t' ∧
    ({ db with table := t' } : SnapDB 1 (by decide)).getCheckpoints = (.ok, []) := by
  let s := (snapRun 1 (by decide) [call (put 5 1), call checkpoint, call sync, call flush]).get (by decide +kernel)
  let t : CMgr Nat := ⟨TMgr.compactL0Begin (CMgr.tab (s.1.table : CMgr Nat)) 0, CMgr.marks (s.1.table : CMgr Nat)⟩
  refine ⟨s.1, s.2, t, ⟨TMgr.compactL0End snapCfg t.tab 0 (fun _ => false), t.marks⟩,
    MCmd.start_reach snapPlain (Option.some_get _).symm, ?_, CMgr.Maint.l0Begin _ 0 (by decide +kernel),
    CMgr.Maint.l0End _ 0 _ (by decide +kernel), ?_⟩
  all_goals decide +kernel

/-- C03 violation: a listed checkpoint whose log file was removed by a flush; the snapshot opens and the
    first `get` dereferences a null pointer. -/
theorem C03_removed_log_violation : ∃ (db : SnapDB 1 (by decide)) (h : List (Rec Nat)) (sn : Snap Nat),
    (∃ cs n, PReach ⟨db, cs⟩ h n) ∧ db.openSnapshot 1 = (.ok, some sn) ∧
    answer (Spec.until h 1) 5 = (.ok, some [1]) ∧ db.snapGet sn 5 = (.undefinedBehaviour, none) := by
  let s := (snapRun 1 (by decide) [call (put 5 1), call checkpoint, call (put 6 2 true), call sync, call flush]).get (by decide +kernel)
  refine ⟨s.1, s.2, (s.1.openSnapshot 1).2.get (by decide +kernel), MCmd.start_reach snapPlain (Option.some_get _).symm, ?_, ?_, ?_⟩
  · exact Prod.ext (by decide +kernel) (Option.some_get _).symm
  · decide +kernel
  · decide +kernel

/-- C03 violation: a key that lives in a deeper level of a partition whose level-0 table is empty; the
    snapshot of the latest state cannot read it. -/
theorem C03_empty_partition_violation : ∃ (db : SnapDB 2 (by decide)) (h : List (Rec Nat)) (sn : Snap Nat),
    (∃ cs n, PReach ⟨db, cs⟩ h n) ∧ db.openSnapshot 0 = (.ok, some sn) ∧
    (∀ x ∈ (CMgr.tab (db.table : CMgr Nat)).l0, x.status = .normal) ∧
    answer h 5 = (.ok, some [1]) ∧ db.snapGet sn 5 = (.snapshotNotFound, none) := by
  let s := (snapRun 2 (by decide) [call (put 5 1), call (put 7 1 true), call sync, call flush, l0Begin 1, l0End 1, call (put 4 9 true),
    call checkpoint, call flush]).get (by decide +kernel)
  refine ⟨s.1, s.2, (s.1.openSnapshot 0).2.get (by decide +kernel), MCmd.start_reach snapPlain (Option.some_get _).symm, ?_, ?_, ?_, ?_⟩
  · exact Prod.ext (by decide +kernel) (Option.some_get _).symm
  all_goals decide +kernel

/-- C03 violation: a checkpoint opened while a level-0 compaction runs shows a write made after it. -/
theorem C03_l0_compaction_violation : ∃ (db : SnapDB 1 (by decide)) (h : List (Rec Nat)) (sn : Snap Nat),
    (∃ cs n, PReach ⟨db, cs⟩ h n) ∧ db.openSnapshot 2 = (.ok, some sn) ∧
    answer (Spec.until h 2) 5 = (.ok, some [1]) ∧ db.snapGet sn 5 = (.ok, some [3]) := by
  let s := (snapRun 1 (by decide) [call (put 5 1), call (put 6 2 true), call checkpoint, call flush, l0Begin 0, call (put 5 3),
    call sync, call flush]).get (by decide +kernel)
  refine ⟨s.1, s.2, (s.1.openSnapshot 2).2.get (by decide +kernel), MCmd.start_reach snapPlain (Option.some_get _).symm, ?_, ?_, ?_⟩
  · exact Prod.ext (by decide +kernel) (Option.some_get _).symm
  all_goals decide +kernel

/-- C03 violation: a level-0 compaction after the snapshot was opened; the snapshot loses the key. -/
theorem C03_compaction_violation : ∃ (db : SnapDB 1 (by decide)) (h : List (Rec Nat)) (sn : Snap Nat) (t : CMgr Nat),
    (∃ cs n, PReach ⟨db, cs⟩ h n) ∧ db.openSnapshot 0 = (.ok, some sn) ∧
    (LsmC snapCfg 1 (by decide) 10).maint db.table t ∧
    db.snapGet sn 5 = (.ok, some [1]) ∧ ({ db with table := t } : SnapDB 1 (by decide)).snapGet sn 5 = (.snapshotNotFound, none) := by
  let s := (snapRun 1 (by decide) [call (put 5 1), call (put 6 2 true), call sync, call flush]).get (by decide +kernel)
  refine ⟨s.1, s.2, (s.1.openSnapshot 0).2.get (by decide +kernel),
    ⟨TMgr.compactL0Begin (CMgr.tab (s.1.table : CMgr Nat)) 0, CMgr.marks (s.1.table : CMgr Nat)⟩,
    MCmd.start_reach snapPlain (Option.some_get _).symm, ?_, CMgr.Maint.l0Begin _ 0 (by decide +kernel), ?_, ?_⟩
  · exact Prod.ext (by decide +kernel) (Option.some_get _).symm
  all_goals decide +kernel

end
end Jungle
