/-
  Databases without tables (`logSectionOnly`): restarts and crashes (C50), memtables that are evicted
  (C41), and rollbacks over restarts and crashes (C49).
-/
import Mathlib.Order.Nat
import Verif.DB.LogStoreLemmas
import Verif.Props.Rollback

set_option linter.unusedSectionVars false

namespace Jungle
open Spec
variable {K : Type} [LinearOrder K] {S : TableSys K}

/-- What a user sees of the history `h`: the reads by key, the reads by number and the highest number. -/
structure Spec.Shows (db : DB K S) (h : List (Rec K)) : Prop where
  get : ∀ k, db.get k = answer h k
  byKey : ∀ k, db.getRecordByKey k = answerRec h k
  bySeq : ∀ s r, db.getRecord s = (.ok, some r) ↔ r ∈ h ∧ r.seq = s
  max : db.getMaxSeqNum = (h.getLast?).map (·.seq)

theorem LDInv.shows {db : DB K S} {h : List (Rec K)} (hi : LDInv db h) (hc : db.check .read = .ok) :
    Shows db h := by
  obtain ⟨h1, h2, h3, -⟩ := hi.reads hc
  refine ⟨h1, h2, h3, ?_⟩
  by_cases hn : h = []
  · have := hi.max0 hn
    rw [hn]; exact this
  · exact hi.maxS hn

theorem LogReach.shows {db : DB K S} {h : List (Rec K)} (hr : LogReach db h) (hc : db.check .read = .ok) :
    Shows db h := hr.inv.shows hc

theorem upTo_prefix {h : List (Rec K)} (hi : Increasing h) (n : Nat) : upTo h n <+: h := by
  induction h with
  | nil => exact List.prefix_refl _
  | cons a h ih =>
    obtain ⟨h1, h2⟩ := List.pairwise_cons.1 hi
    unfold upTo
    by_cases e : a.seq ≤ n
    · rw [List.filter_cons_of_pos (by simpa using e)]
      exact (List.prefix_cons_inj a).2 (ih h2)
    · rw [List.filter_cons_of_neg (by simpa using e), List.filter_eq_nil_iff.2 (fun r hr => by
        have := h1 r hr; simp; omega)]
      exact List.nil_prefix

theorem Spec.Consecutive.upTo {h : List (Rec K)} (hc : Consecutive h) (hi : Increasing h) (n : Nat) :
    Consecutive (upTo h n) := by
  obtain ⟨Y, hY⟩ := upTo_prefix hi n
  intro L a b R e
  refine hc L a b (R ++ Y) ?_
  rw [← hY, e]; simp

/-- C50: after a sync, opening the database again shows the same records, and the
    history goes on.  With `truncateInconsecutiveLogs`, the default, this needs numbers without gaps.
    Missing: see `C50_gap_violation`. -/
theorem C50_restart_partial {db db' : DB K S} {h : List (Rec K)} (hr : LogReach db h) (hne : h ≠ [])
    (hs : db.sync = (.ok, db')) {cfg : Cfg} (hc : cfg.LogOnly) {trunc : Bool} (ht : trunc = true → Consecutive h) :
    LogReach (DB.reopenOnly cfg trunc db'.diskOf) h ∧ Shows (DB.reopenOnly cfg trunc db'.diskOf) h := by
  obtain ⟨h1, h2, -, h4⟩ := hr.inv.sync_ok hs
  obtain ⟨hl, q, hq, hre⟩ := h1.restart h2 hne h4
  obtain ⟨hm, -⟩ := hre cfg trunc hc ht
  have := LogReach.reopen cfg trunc db'.diskOf q (LogReach.sync hr hs) hc hl ht hm
  rw [hq] at this
  exact ⟨this, this.shows rfl⟩

/-- C50: a crash at rest or while a sync writes the newest log file loses no synced
    record: what is left is the history up to some number that is not below the synced one.
    Missing: two log files added since the last sync, see `C50_hollow_violation`; for one, see
    `C50_crash_new_file_partial`. -/
theorem C50_crash_partial {db : DB K S} {h : List (Rec K)} (hr : LogReach db h) {d : Disk K S}
    (hd : LogLeft db d) {cfg : Cfg} (hc : cfg.LogOnly) {trunc : Bool} (ht : trunc = true → Consecutive h) :
    ∃ q, LogReach (DB.reopenOnly cfg trunc d) (upTo h q) ∧ Shows (DB.reopenOnly cfg trunc d) (upTo h q) ∧
      ∀ s, db.getLastSyncedSeqNum = some s → s ≤ q := by
  obtain ⟨q, -, hq, hre⟩ := hr.inv.left hd
  obtain ⟨hm, -⟩ := hre cfg trunc hc ht
  have := LogReach.reopen cfg trunc d q hr hc hd ht hm
  refine ⟨q, this, this.shows rfl, fun s hs => ?_⟩
  unfold DB.getLastSyncedSeqNum LogMgr.getLastSyncedSeqNum at hs
  rw [hd.synced] at hs
  cases hf : db.log.file? db.log.maxNum with
  | none => rw [hf] at hs; cases hs
  | some f =>
    rw [hf] at hs
    simp only [] at hs
    split at hs
    · cases hs
    · cases hs
      exact hq f (List.mem_of_find?_eq_some hf)

/-- C50: the same if one log file was added since the last sync and the checks are on.
    Missing: the checks off, or two log files added, see `C50_hollow_violation`. -/
theorem C50_crash_new_file_partial {db : DB K S} {h : List (Rec K)} (hr : LogReach db h) {d : Disk K S}
    (hd : LogLeftNew db d) {cfg : Cfg} (hc : cfg.LogOnly) (ht : Consecutive h) :
    ∃ q, LogReach (DB.reopenOnly cfg true d) (upTo h q) ∧ Shows (DB.reopenOnly cfg true d) (upTo h q) ∧
      ∀ s, db.getLastSyncedSeqNum = some s → s ≤ q := by
  obtain ⟨q, -, hq, hre⟩ := hr.inv.leftNew hd
  obtain ⟨hm, -⟩ := hre cfg hc ht
  have := LogReach.reopenNew cfg d q hr hc hd ht hm
  refine ⟨q, this, this.shows rfl, fun s hs => ?_⟩
  unfold DB.getLastSyncedSeqNum LogMgr.getLastSyncedSeqNum at hs
  cases hf : db.log.file? db.log.lastSynced with
  | none => rw [hf] at hs; cases hs
  | some f =>
    rw [hf] at hs
    simp only [] at hs
    split at hs
    · cases hs
    · cases hs
      have hfn : f.num = db.log.lastSynced := by
        have := List.find?_some hf; simpa using this
      exact hq f (List.mem_of_find?_eq_some hf) (by have := hd.synced; omega)

/-- The manifest that `LogLeftNew` speaks of is the one a write stores when it adds a log file; writes
    to this log file leave it as it is. -/
theorem C50_manifest {db db' : DB K S} {h : List (Rec K)} (hr : LogReach db h) (r : Rec K) (se : Bool)
    (hfit : db.Fits 1) (hseq : db.FreshSeq r.seq) (hse : db.getMaxSeqNum = none → se = false)
    (hs : db.setRecord r se = (.ok, db')) :
    (db'.log.maxNum = db.log.maxNum ∧ db'.log.whenAdded = db.log.whenAdded) ∨
    (db'.log.maxNum = db.log.maxNum + 1 ∧ db'.log.whenAdded = db.log.rotated) := by
  have hi := hr.inv.log.log
  unfold DB.setRecord at hs
  split at hs
  · next hc => exact absurd (congrArg Prod.fst hs) hc
  · have h0 : r.seq ≠ 0 := by
      intro h0
      unfold LogMgr.setSN at hs
      rw [if_neg (by simp [hi.rw]), if_pos h0] at hs
      cases congrArg Prod.fst hs
    have hok : db.log.seqOk r.seq := by
      rcases hseq with hn | ⟨hn, hm⟩
      · left; refine ⟨hn, ?_⟩; rw [hi.nextSeq_eq]; exact hfit.1
      · right; exact ⟨by omega, hn, hm⟩
    obtain ⟨s, l', hl, ho⟩ := hi.setSN r se hok hfit.2 hse
    rw [hl] at hs
    cases hs
    exact ho.step.whenAdded hi

/-- C41: deleting a memtable and loading it again changes no read. -/
theorem C41_evict_invisible {db : DB K S} {h : List (Rec K)} (hr : LogReach db h) (num : Nat)
    (hc : db.check .read = .ok) :
    Shows db h ∧ LogReach { db with log := db.log.evict num } h ∧ Shows ({ db with log := db.log.evict num } : DB K S) h := by
  have := LogReach.evict num hr
  exact ⟨hr.shows hc, this, this.shows hc⟩

theorem LDInv.rollback_log {db db' : DB K S} {B} (h : LDInv db B) {n : Nat} (hs : db.rollback n = (.ok, db')) :
    db.log.rollback n = (.ok, db'.log) := by
  have hck := DB.rollback_check hs
  unfold DB.rollback at hs
  rw [hck, h.only] at hs
  simp only [ne_eq, not_true_eq_false, if_false, Bool.not_true, Bool.false_eq_true] at hs
  have e1 := congrArg Prod.fst hs
  have e2 := congrArg (fun x => x.2.log) hs
  exact Prod.ext e1 e2

/-- C49: what a successful rollback left is still so after a restart, and the history goes on from there.
    Missing: crashes before the rollback returns, see `C49_crash_violation`, a power failure, see
    `C49_power_violation`, and iterators or snapshots open during the rollback, see
    `C49_reader_violation`. -/
theorem C49_rollback_durable_partial {db db' : DB K S} {h : List (Rec K)} (hr : LogReach db h) (hne : h ≠ []) {n : Nat}
    (hs : db.rollback n = (.ok, db')) {cfg : Cfg} (hc : cfg.LogOnly) {trunc : Bool} (ht : trunc = true → Consecutive h) :
    LogReach (DB.reopenOnly cfg trunc db'.diskOf) (upTo h n) ∧
    Shows (DB.reopenOnly cfg trunc db'.diskOf) (upTo h n) := by
  have hr' := LogReach.rollback n hr hne hs
  have hck := DB.rollback_check hs
  have hs' := hr.inv.rollback_log hs
  obtain ⟨h1, h2, -⟩ := hr.inv.log.rollback_synced hne hs'
  have hne' : upTo h n ≠ [] := by
    rcases hr.inv.rollback hne n hck with ⟨d2, e1, -, e3, -⟩ | ⟨d2, e1, -⟩
    · exact e3
    · rw [hs] at e1; cases congrArg Prod.fst e1
  obtain ⟨hl, q, hq, hre⟩ := hr'.inv.restart h1 hne' h2
  have ht' : trunc = true → Consecutive (upTo h n) := fun e => Consecutive.upTo (ht e) hr.inv.log.log.inc n
  obtain ⟨hm, -⟩ := hre cfg trunc hc ht'
  have := LogReach.reopen cfg trunc db'.diskOf q hr' hc hl ht' hm
  rw [hq] at this
  exact ⟨this, this.shows rfl⟩

/-- C49: if no log file was begun after the record the rollback goes back to, a crash at any point of the
    rollback leaves everything, or exactly what the rollback was to leave.
    Missing: see `C49_crash_violation`. -/
theorem C49_crash_partial {db db' : DB K S} {h : List (Rec K)} (hr : LogReach db h) (hne : h ≠ []) {n : Nat}
    (hs : db.rollback n = (.ok, db')) (hnew : db'.log.maxNum = db.log.maxNum) {d : Disk K S}
    (hd : RollbackCrash db n d) {cfg : Cfg} (hc : cfg.LogOnly) {trunc : Bool} (ht : trunc = true → Consecutive h) :
    Shows (DB.reopenOnly cfg trunc d) h ∨ Shows (DB.reopenOnly cfg trunc d) (upTo h n) := by
  have hi := hr.inv
  obtain ⟨-, -, l0, f0, k1, k2, k3⟩ := hi.log.rollback_synced hne (hi.rollback_log hs)
  cases hd with
  | @before l1 e1 =>
    left
    obtain ⟨s1, s2, -, s4, s5⟩ := hi.log.synced_sync e1
    have hI : LDInv ({ db with log := l1 } : DB K S) h := LDInv.ofLR s1 (by show l1.cfg.logSectionOnly = true; rw [s2]; exact hi.only)
    obtain ⟨-, q, -, hre⟩ := hI.restart s4 hne (fun f hf => (s5 f hf).2)
    exact (hre cfg trunc hc ht).2.shows rfl
  | @cut l1 f f1 keep e1 e2 e3 =>
    right
    have el : l0 = l1 := by rw [e1] at k1; cases k1; rfl
    subst l0
    have ef : f0 = f := by rw [e2] at k2; cases k2; rfl
    subst f0
    obtain ⟨s1, s2, s3, s4, s5⟩ := hi.log.synced_sync e1
    have hD := s1.cut_newest hne s5 e2 e3 (by omega) keep
    have hsy : ∀ g ∈ l1.files, g.mem.syncedSeqNum ≠ NIL := by
      intro g hg
      have hm : g.mem.maxSeqNum ≠ NIL := by
        by_cases e : g.num = l1.maxNum
        · obtain ⟨hf, hm, -⟩ := s1.truncate hne s5 e2
          rw [s1.log.same_num hg hf (by omega)]; exact hm
        · exact s1.log.ne_last hg (by have := (s1.log.num_range hg).2; omega)
      rw [(s5 g hg).2 hm]; exact hm
    obtain ⟨er, hR⟩ := s1.reloaded hD hc.rw hc.noOverwrite hc.entries trunc (fun e => s1.passes s4 hsy (ht e))
    refine LDInv.shows (LDInv.ofLR ?_ ?_) rfl
    · show LRInv (LogMgr.recoverOnly cfg trunc l1.persist _) _
      rw [er]; exact hR
    · show (LogMgr.recoverOnly cfg trunc l1.persist _).cfg.logSectionOnly = true
      rw [er]; exact hc.only
  | @done db2 e1 =>
    right
    exact (C49_rollback_durable_partial hr hne e1 hc ht).2

/-! ### Concrete cases -/
section

theorem consecutive_of_nums {h : List (Rec K)} {a n : Nat} (e : h.map (·.seq) = List.range' a n) : Consecutive h := by
  intro L x y R hh
  rw [hh] at e
  have e1 := congrArg (fun X => X[L.length]?) e
  have e2 := congrArg (fun X => X[L.length + 1]?) e
  have e3 := congrArg List.length e
  simp only [List.map_append, List.map_cons, List.length_append, List.length_map, List.length_cons, List.length_range'] at e3
  simp only [List.map_append, List.map_cons] at e1 e2
  rw [List.getElem?_append_right (by simp), List.getElem?_range' (by omega)] at e1
  rw [List.getElem?_append_right (by simp), List.getElem?_range' (by omega)] at e2
  simp at e1 e2
  omega

theorem rbS_consecutive : Consecutive rbS.2 := consecutive_of_nums (a := 1) (n := 5) (by decide +kernel)

/-- `rbS` after a sync. -/
def lsSynced := rbS.1.sync.2

theorem lsSynced_reach : LogReach lsSynced rbS.2 := LogReach.sync rbS_reach rfl

-- C50: three log files; the database opened again shows the last write of key 1.
example : LogReach rbS.1 rbS.2 ∧ rbS.2 ≠ [] ∧ rbS.1.sync = (.ok, lsSynced) ∧ rbCfg.LogOnly ∧ Consecutive rbS.2 ∧
    (DB.reopenOnly rbCfg true lsSynced.diskOf).get 1 = (.ok, some [12]) ∧
    (DB.reopenOnly rbCfg true lsSynced.diskOf).log.files.length = 3 :=
  ⟨rbS_reach, by decide +kernel, Prod.ext (by decide +kernel) rfl, ⟨rfl, rfl, rfl, by decide⟩, rbS_consecutive,
    by decide +kernel, by decide +kernel⟩

/-- After the sync one more record, number 6, which a crash loses. -/
def lsMore := (rbRun (lsSynced, rbS.2) [rbRec NIL 1 13]).get (by decide +kernel)

theorem lsMore_reach : LogReach lsMore.1 lsMore.2 := rbRun_reach (s := (lsSynced, rbS.2)) lsSynced_reach (Option.some_get _).symm

-- C50: the crash loses record 6 and nothing else.
example : LogReach lsMore.1 lsMore.2 ∧ LogLeft lsMore.1 lsMore.1.diskOf ∧ Consecutive lsMore.2 ∧
    lsMore.1.getLastSyncedSeqNum = some 5 ∧ lsMore.1.get 1 = (.ok, some [13]) ∧
    (DB.reopenOnly rbCfg true lsMore.1.diskOf).get 1 = (.ok, some [12]) :=
  ⟨lsMore_reach, lsMore_reach.inv.rest (by decide +kernel) (by decide +kernel),
    consecutive_of_nums (a := 1) (n := 6) (by decide +kernel), by decide +kernel, by decide +kernel, by decide +kernel⟩

/-- One record synced, one more, and one more in a new log file. -/
def lsOne := (rbRun (DB.init (Flat Nat) rbCfg, []) [rbRec NIL 1 10]).get (by decide +kernel)
def lsNew := (rbRun (lsOne.1.sync.2, lsOne.2) [rbRec NIL 2 20, rbRec NIL 3 30]).get (by decide +kernel)

theorem lsNew_reach : LogReach lsNew.1 lsNew.2 :=
  rbRun_reach (s := (lsOne.1.sync.2, lsOne.2))
    (LogReach.sync (rbRun_reach rbInit (s' := lsOne) (Option.some_get _).symm) rfl) (Option.some_get _).symm

-- C50: the manifest lists the new log file; it is dropped, and the synced record is there.
example : LogReach lsNew.1 lsNew.2 ∧ LogLeftNew lsNew.1 { lsNew.1.diskOf with mani := lsNew.1.log.whenAdded } ∧
    Consecutive lsNew.2 ∧ lsNew.1.log.whenAdded.entries.length = 2 ∧ lsNew.1.getLastSyncedSeqNum = some 1 ∧
    (DB.reopenOnly rbCfg true { lsNew.1.diskOf with mani := lsNew.1.log.whenAdded }).get 1 = (.ok, some [10]) ∧
    (DB.reopenOnly rbCfg true { lsNew.1.diskOf with mani := lsNew.1.log.whenAdded }).getMaxSeqNum = some 1 :=
  ⟨lsNew_reach, lsNew_reach.inv.restNew (by decide +kernel) (by decide +kernel),
    consecutive_of_nums (a := 1) (n := 3) (by decide +kernel), by decide +kernel, by decide +kernel, by decide +kernel,
    by decide +kernel⟩

-- C41: the memtable of the second log file is deleted and loaded again.
example : LogReach lsSynced rbS.2 ∧ lsSynced.check .read = .ok ∧ (lsSynced.log.evict 1).files.length = 3 ∧
    (lsSynced.log.file? 1).map (·.immutable) = some true ∧ lsSynced.log.lastSynced = 2 ∧ lsSynced.log.minNum = 0 ∧
    ({ lsSynced with log := lsSynced.log.evict 1 } : DB Nat (Flat Nat)).get 3 = (.ok, some [30]) :=
  ⟨lsSynced_reach, by decide +kernel, by decide +kernel, by decide +kernel, by decide +kernel, by decide +kernel,
    by decide +kernel⟩

-- C49: the rollback to record 3 and a restart.
example : LogReach rbS.1 rbS.2 ∧ rbS.2 ≠ [] ∧ (rbS.1.rollback 3).1 = .ok ∧ Consecutive rbS.2 ∧
    (DB.reopenOnly rbCfg true (rbS.1.rollback 3).2.diskOf).get 1 = (.ok, some [11]) ∧
    (DB.reopenOnly rbCfg true (rbS.1.rollback 3).2.diskOf).get 3 = (.keyNotFound, none) ∧
    (DB.reopenOnly rbCfg true (rbS.1.rollback 3).2.diskOf).getMaxSeqNum = some 3 :=
  ⟨rbS_reach, by decide +kernel, by decide +kernel, rbS_consecutive, by decide +kernel, by decide +kernel, by decide +kernel⟩

/-- Six writes: the newest log file holds the records 5 and 6. -/
def lsSix := (rbRun rbS [rbRec NIL 2 21]).get (by decide +kernel)

theorem lsSix_reach : LogReach lsSix.1 lsSix.2 := rbRun_reach rbS_reach (Option.some_get _).symm

/-- The crash in the middle of a rollback. -/
def lsCut (db : DB Nat (Flat Nat)) (n : Nat) : Option (Disk Nat (Flat Nat)) :=
  match db.log.sync with
  | (.ok, l1) =>
    match l1.fileBySeq n with
    | some f =>
      match f.truncate n with
      | (.ok, f1) =>
        some { mani := l1.persist
               files := ((l1.setFile f1).files.filter (fun g => decide (g.num ≤ f.num) || true)).map LogFile.onDisk
               table := db.table }
      | _ => none
    | none => none
  | _ => none

theorem lsCut_crash {db : DB Nat (Flat Nat)} {n : Nat} {d} (h : lsCut db n = some d) : RollbackCrash db n d := by
  unfold lsCut at h
  split at h
  · next l1 e1 =>
    split at h
    · next f e2 =>
      split at h
      · next f1 e3 =>
        cases h
        exact RollbackCrash.cut (fun _ => true) e1 e2 e3
      · cases h
    · cases h
  · cases h

def lsSixCut := (lsCut lsSix.1 5).get (by decide +kernel)
def lsFiveCut := (lsCut rbS.1 3).get (by decide +kernel)
def lsFivePower := (rbS.1.rollbackPowerLoss 3).get (by decide +kernel)

-- C49: the crash in the middle of the rollback to record 5, which is in the newest log file.
example : ∃ d, LogReach lsSix.1 lsSix.2 ∧ (lsSix.1.rollback 5).1 = .ok ∧
    (lsSix.1.rollback 5).2.log.maxNum = lsSix.1.log.maxNum ∧ RollbackCrash lsSix.1 5 d ∧ Consecutive lsSix.2 ∧
    lsSix.1.get 2 = (.ok, some [21]) ∧ (DB.reopenOnly rbCfg true d).get 2 = (.ok, some [20]) := by
  refine ⟨lsSixCut, lsSix_reach, by decide +kernel, by decide +kernel, lsCut_crash (Option.some_get _).symm,
    consecutive_of_nums (a := 1) (n := 6) (by decide +kernel), by decide +kernel, by decide +kernel⟩

/-- C50 violation: the numbers 1, 2 and 9 were written and synced; the database is closed and opened
    again with the default options, and record 9, the first of its log file, is gone. -/
theorem C50_gap_violation : ∃ (db db' : DB Nat (Flat Nat)) (h : List (Rec Nat)), LogReach db h ∧
    h.map (·.seq) = [1, 2, 9] ∧ db.sync = (.ok, db') ∧ db'.get 3 = (.ok, some [30]) ∧
    (DB.reopenOnly rbCfg true db'.diskOf).get 3 = (.keyNotFound, none) ∧
    (DB.reopenOnly rbCfg false db'.diskOf).get 3 = (.ok, some [30]) := by
  let s := (rbRun (DB.init (Flat Nat) rbCfg, []) [rbRec NIL 1 10, rbRec NIL 2 20, rbRec 9 3 30]).get (by decide +kernel)
  exact ⟨s.1, s.1.sync.2, s.2, rbRun_reach rbInit (Option.some_get _).symm, by decide +kernel,
    Prod.ext (by decide +kernel) rfl, by decide +kernel, by decide +kernel, by decide +kernel⟩

/-- Two synced records. -/
def lsTwo := (rbRun (DB.init (Flat Nat) rbCfg, []) [rbRec NIL 1 10, rbRec NIL 2 20]).get (by decide +kernel)

/-- Two more, in the second log file. -/
def lsT := (rbRun (lsTwo.1.sync.2, lsTwo.2) [rbRec NIL 3 30, rbRec NIL 4 40]).get (by decide +kernel)

theorem lsT_reach : LogReach lsT.1 lsT.2 :=
  rbRun_reach (s := (lsTwo.1.sync.2, lsTwo.2))
    (LogReach.sync (rbRun_reach rbInit (s' := lsTwo) (Option.some_get _).symm) rfl) (Option.some_get _).symm

/-- One more, in the third log file. -/
def lsU := (lsT.1.set 5 [50]).2

-- `C50_manifest`: the write that adds the third log file.
example : LogReach lsT.1 lsT.2 ∧ (lsT.1.set 5 [50]).1 = .ok ∧ lsU.log.maxNum = lsT.1.log.maxNum + 1 ∧
    lsU.log.whenAdded = lsT.1.log.rotated :=
  ⟨lsT_reach, by decide +kernel, by decide +kernel, by decide +kernel⟩

/-- What a crash then leaves. -/
def lsD : Disk Nat (Flat Nat) := { mani := lsT.1.log.rotated, files := lsU.log.files.map LogFile.onDisk, table := lsU.table }

/-- A write after the restart. -/
def lsV := ((DB.reopenOnly rbCfg true lsD).set 7 [7]).2

/-- C50 violation: two log files were added since the last sync, and the crash leaves the manifest
    written with the second of them and no records in them.  After the restart a write is accepted and
    synced; it is lost when the database is opened the next time. -/
theorem C50_hollow_violation : ∃ (db db1 : DB Nat (Flat Nat)) (h : List (Rec Nat)) (d : Disk Nat (Flat Nat))
    (db2 db3 : DB Nat (Flat Nat)), LogReach db h ∧ (∃ k v, db.set k v = (.ok, db1)) ∧
    d.mani = db.log.rotated ∧ d.files = db1.log.files.map LogFile.onDisk ∧
    db1.getLastSyncedSeqNum = some 2 ∧ (DB.reopenOnly rbCfg true d).getMaxSeqNum = some 2 ∧
    (DB.reopenOnly rbCfg true d).set 7 [7] = (.ok, db2) ∧ db2.sync = (.ok, db3) ∧
    db3.get 7 = (.ok, some [7]) ∧ (DB.reopenOnly rbCfg true db3.diskOf).get 7 = (.keyNotFound, none) := by
  exact ⟨lsT.1, lsU, lsT.2, lsD, lsV, lsV.sync.2, lsT_reach, ⟨5, [50], Prod.ext (by decide +kernel) rfl⟩, rfl, rfl,
    by decide +kernel, by decide +kernel, Prod.ext (by decide +kernel) rfl, Prod.ext (by decide +kernel) rfl,
    by decide +kernel, by decide +kernel⟩

/-- C49 violation: a crash in the middle of the rollback to record 3, after its log file was cut and
    before the manifest was stored, loses record 4 and keeps record 5. -/
theorem C49_crash_violation : ∃ (db db' : DB Nat (Flat Nat)) (h : List (Rec Nat)) (d : Disk Nat (Flat Nat)),
    LogReach db h ∧ Consecutive h ∧ h.map (·.seq) = [1, 2, 3, 4, 5] ∧ db.rollback 3 = (.ok, db') ∧ RollbackCrash db 3 d ∧
    ((DB.reopenOnly rbCfg true d).getRecord 4).1 ≠ .ok ∧
    ((DB.reopenOnly rbCfg true d).getRecord 5).1 = .ok ∧
    ¬ Shows (DB.reopenOnly rbCfg true d) h ∧ ¬ Shows (DB.reopenOnly rbCfg true d) (upTo h 3) := by
  refine ⟨rbS.1, (rbS.1.rollback 3).2, rbS.2, lsFiveCut, rbS_reach, rbS_consecutive, by decide +kernel,
    Prod.ext (by decide +kernel) rfl, lsCut_crash (Option.some_get _).symm, by decide +kernel, by decide +kernel, fun hh => ?_, fun hh => ?_⟩
  · have := hh.get 3
    revert this; decide +kernel
  · have := hh.max
    revert this; decide +kernel

/-- C49 violation: a power failure after the rollback to record 3 returned.  The manifest was synced,
    the log file that was cut was not: record 4 is back. -/
theorem C49_power_violation : ∃ (db db' : DB Nat (Flat Nat)) (h : List (Rec Nat)) (d : Disk Nat (Flat Nat)),
    LogReach db h ∧ Consecutive h ∧ db.rollback 3 = (.ok, db') ∧ db.rollbackPowerLoss 3 = some d ∧
    (db'.getRecord 4).1 ≠ .ok ∧ ((DB.reopenOnly rbCfg true d).getRecord 4).1 = .ok := by
  exact ⟨rbS.1, (rbS.1.rollback 3).2, rbS.2, lsFivePower, rbS_reach, rbS_consecutive,
    Prod.ext (by decide +kernel) rfl, (Option.some_get _).symm, by decide +kernel, by decide +kernel⟩

/-- C49 violation: an iterator refers to the third log file during the rollback to record 3.  The next
    write creates a file of the same name; it is synced; the iterator is closed, and the new file is
    deleted.  After a restart the synced write is gone. -/
theorem C49_reader_violation : ∃ (db : DB Nat (Flat Nat)) (h : List (Rec Nat)) (s1 s2 s3 : HeldDB Nat (Flat Nat)),
    LogReach db h ∧ Consecutive h ∧ HeldDB.rollback { db := db } 3 [2] = (.ok, s1) ∧ s1.set 7 [7] = (.ok, s2) ∧
    s2.sync = (.ok, s3) ∧ s3.db.get 7 = (.ok, some [7]) ∧
    (DB.reopenOnly rbCfg true s3.disk).get 7 = (.ok, some [7]) ∧
    (DB.reopenOnly rbCfg true (s3.release 2).disk).get 7 = (.keyNotFound, none) := by
  let s1 := (HeldDB.rollback { db := rbS.1 } 3 [2]).2
  let s2 := (s1.set 7 [7]).2
  exact ⟨rbS.1, rbS.2, s1, s2, s2.sync.2, rbS_reach, rbS_consecutive, Prod.ext (by decide +kernel) rfl,
    Prod.ext (by decide +kernel) rfl, Prod.ext (by decide +kernel) rfl, by decide +kernel, by decide +kernel,
    by decide +kernel⟩

end
end Jungle
