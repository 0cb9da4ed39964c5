/-
  C69: a cloned manifest opens to what was synced when it was made.
-/
import Verif.DB.Clone
import Verif.Props.LogStore

namespace Jungle
open Spec
set_option linter.unusedSectionVars false
variable {K : Type} [LinearOrder K] {S : TableSys K}

/-- A configuration with which a cloned manifest can be opened. -/
structure Cfg.ForClone (c : Cfg) : Prop where
  only : c.logSectionOnly = true
  ro : c.readOnly = true
  noOverwrite : c.allowOverwrite = false
  entries : 0 < c.maxEntries

theorem getMax_files {l l' : LogMgr K} (hf : l.files = l'.files) (hm : l.maxNum = l'.maxNum) (hb : l.barrier = l'.barrier) :
    l.getMaxSeqNum = l'.getMaxSeqNum := by
  have key : ∀ fuel n, LogMgr.getMaxSeqNum.go l n fuel = LogMgr.getMaxSeqNum.go l' n fuel := by
    intro fuel
    induction fuel with
    | zero => intro n; rfl
    | succ k ih =>
      intro n
      have e : l.file? n = l'.file? n := by unfold LogMgr.file?; rw [hf]
      unfold LogMgr.getMaxSeqNum.go
      rw [e]
      cases l'.file? n with
      | none => rfl
      | some f => simp only [ih]
  unfold LogMgr.getMaxSeqNum
  rw [hb, hm, hf, key]

/-- What is read does not depend on the mode the database was opened in. -/
theorem LDInv.shows_ro {c : Cfg} {trunc : Bool} {d : Disk K S} {h : List (Rec K)}
    (hi : LDInv (DB.reopenOnly { c with readOnly := false } trunc d) h) : Shows (DB.reopenOnly c trunc d) h := by
  have hs := hi.shows rfl
  refine ⟨fun k => ?_, fun k => ?_, fun s r => ?_, ?_⟩
  · rw [← hs.get k]; rfl
  · rw [← hs.byKey k]; rfl
  · rw [← hs.bySeq s r]; rfl
  · rw [← hs.max]; exact getMax_files rfl rfl rfl

/-- C69: the database is synced and its manifest is cloned; then other records are written, synced, and
    so on.  The clone, opened at any time, shows a history that begins with all records synced when it
    was made, and goes on with nothing but the records that were written next.
    Missing: it should go on with nothing, see `C69_later_violation`; a rollback after the clone was made,
    see `C69_rollback_violation`. -/
theorem C69_clone_partial {db db1 db' : DB K S} {h h' : List (Rec K)} (hr : LogReach db h) (hne : h ≠ [])
    (hs : db.sync = (.ok, db1)) (ht : LogThen db1 h db' h') {cfg : Cfg} (hc : cfg.ForClone) {trunc : Bool}
    (hcons : trunc = true → Consecutive h) :
    ∃ m c h'', db1.cloneManifest db1.log.persist true = (.ok, some m, db1.getMaxSeqNum) ∧
      DB.openClone cfg trunc (some m) db' = some c ∧ h <+: h'' ∧ h'' <+: h' ∧ Shows c h'' := by
  have hr1 : LogReach db1 h := .sync hr hs
  obtain ⟨h1, h2, -, h4⟩ := hr.inv.sync_ok hs
  have hck : db1.check .read = .ok := by
    unfold DB.sync at hs
    split at hs
    · next hh => exact absurd (congrArg Prod.fst hs) hh
    · next hh =>
      have e2 : ({ db with log := db.log.sync.2 } : DB K S) = db1 := congrArg Prod.snd hs
      rw [← e2]
      unfold DB.check at hh ⊢
      cases hcl : db.closing
      · simp
      · simp [hcl] at hh
  obtain ⟨h'', p1, p2, hre⟩ := h1.clone (ht.reach hr1).inv hne ht.prefix h2 h4 (ht.grows hr1)
  refine ⟨db1.log.persist, _, h'', ?_, ?_, p1, p2, LDInv.shows_ro
    (hre { cfg with readOnly := false } trunc ⟨rfl, hc.noOverwrite, hc.only, hc.entries⟩ hcons)⟩
  · unfold DB.cloneManifest; simp [hck]
  · unfold DB.openClone
    rw [if_neg (by simp [hc.only, hc.ro])]
    rfl

/-- C69: as long as nothing is written, the clone shows exactly what was synced when it was made. -/
theorem C69_at_once {db db1 db' : DB K S} {h : List (Rec K)} (hr : LogReach db h) (hne : h ≠ [])
    (hs : db.sync = (.ok, db1)) (ht : LogThen db1 h db' h) {cfg : Cfg} (hc : cfg.ForClone) {trunc : Bool}
    (hcons : trunc = true → Consecutive h) :
    ∃ m c, db1.cloneManifest db1.log.persist true = (.ok, some m, db1.getMaxSeqNum) ∧
      DB.openClone cfg trunc (some m) db' = some c ∧ Shows c h := by
  obtain ⟨m, c, h'', e1, e2, p1, p2, sh⟩ := C69_clone_partial hr hne hs ht hc hcons
  have : h'' = h := List.IsPrefix.eq_of_length_le p2 p1.length_le
  subst this
  exact ⟨m, c, e1, e2, sh⟩

/-- C69: a handle that is being closed makes no clone and says so. -/
theorem C69_closing (db : DB K S) (hc : db.closing = true) (m : PMani) (copies : Bool) :
    (db.cloneManifest m copies).1 ≠ .ok ∧ (db.cloneManifest m copies).2.1 = none := by
  have h : db.check .read ≠ .ok := by unfold DB.check; simp [hc]
  unfold DB.cloneManifest
  rw [if_pos h]
  exact ⟨h, rfl⟩

/-- C69: a clone is opened only read-only and in log-section mode, and only if the copy exists. -/
theorem C69_mode (cfg : Cfg) (trunc : Bool) (m : Option PMani) (db c : DB K S)
    (h : DB.openClone cfg trunc m db = some c) :
    cfg.readOnly = true ∧ cfg.logSectionOnly = true ∧ m ≠ none := by
  unfold DB.openClone at h
  split at h
  · cases h
  · next hh =>
    refine ⟨?_, ?_, fun e => by rw [e] at h; cases h⟩
    · cases hr : cfg.readOnly
      · exact absurd (Or.inr hr) hh
      · rfl
    · cases hr : cfg.logSectionOnly
      · exact absurd (Or.inl hr) hh
      · rfl

/-- C69: through the clone nothing is changed: writes, batches, syncs and rollbacks are refused and
    leave it as it is. -/
theorem C69_readonly (cfg : Cfg) (trunc : Bool) (m : Option PMani) (db c : DB K S)
    (h : DB.openClone cfg trunc m db = some c) :
    (∀ r se, c.setRecord r se = (.writeViolation, c)) ∧ (∀ b, c.setRecordBatch b = (.writeViolation, c)) ∧
    c.sync = (.writeViolation, c) ∧ ∀ n, c.rollback n = (.writeViolation, c) := by
  obtain ⟨hro, hlo, hm⟩ := C69_mode cfg trunc m db c h
  unfold DB.openClone at h
  split at h
  · cases h
  · cases m with
    | none => exact absurd rfl hm
    | some m =>
      simp only [Option.map_some, Option.some.injEq] at h
      subst h
      have hcfg : (DB.reopenOnly cfg trunc { db.diskOf with mani := m }).log.cfg = cfg := rfl
      have hck : ∀ op, (DB.reopenOnly cfg trunc { db.diskOf with mani := m } : DB K S).check op = .ok := fun op => by
        unfold DB.check DB.reopenOnly; simp
      generalize DB.reopenOnly cfg trunc { db.diskOf with mani := m } = c at hcfg hck ⊢
      have hro' : c.log.cfg.readOnly = true := by rw [hcfg]; exact hro
      refine ⟨fun r se => ?_, fun b => ?_, ?_, fun n => ?_⟩
      · unfold DB.setRecord LogMgr.setSN
        simp [hck, hro']
      · unfold DB.setRecordBatch LogMgr.setMulti
        simp [hck, hro']
      · unfold DB.sync LogMgr.sync
        simp [hck, hro']
      · unfold DB.rollback LogMgr.rollback LogMgr.rollbackCore
        have hlo' : c.log.cfg.logSectionOnly = true := by rw [hcfg]; exact hlo
        simp [hck, hro', hlo']

/-! ### where the clone is not a snapshot -/

namespace CloneEx

/-- Read-only and in log-section mode. -/
def roCfg : Cfg := { rbCfg with readOnly := true }

/-- Key 1 is written and synced; the manifest is cloned. -/
def one := (rbRun (DB.init (Flat Nat) rbCfg, []) [rbRec NIL 1 10]).get (by decide +kernel)
def synced : DB Nat (Flat Nat) := one.1.sync.2

/-- Then a new value of key 1, in the same log file. -/
def written : DB Nat (Flat Nat) := (synced.setRecord (rbRec NIL 1 11)).2
/-- Then key 2, in the next log file, and a sync. -/
def more : DB Nat (Flat Nat) := (written.setRecord (rbRec NIL 2 20)).2
def later : DB Nat (Flat Nat) := more.sync.2

theorem one_reach : LogReach one.1 one.2 := rbRun_reach rbInit (Option.some_get _).symm
theorem synced_ok : one.1.sync = (.ok, synced) := Prod.ext (by decide +kernel) rfl

theorem later_then : LogThen synced one.2 later
    ((one.2 ++ number (synced.getMaxSeqNum.getD 0) [rbRec NIL 1 11]) ++ number (written.getMaxSeqNum.getD 0) [rbRec NIL 2 20]) :=
  .sync (.set (rbRec NIL 2 20) false
    (.set (rbRec NIL 1 11) false .refl (by unfold DB.Fits; decide +kernel) (Or.inl rfl) (fun _ => rfl) (Prod.ext (by decide +kernel) rfl))
    (by unfold DB.Fits; decide +kernel) (Or.inl rfl) (fun _ => rfl) (Prod.ext (by decide +kernel) rfl)) (Prod.ext rfl rfl)

theorem ro_ok : roCfg.ForClone := ⟨rfl, rfl, rfl, by decide⟩

/-- What the clone made after the first sync reads in the files of `db`. -/
def cloneGet (db : DB Nat (Flat Nat)) (k : Nat) : Option (Status × Option Bytes) :=
  (DB.openClone roCfg true (synced.cloneManifest synced.log.persist true).2.1 db).map (fun c => c.get k)

end CloneEx

-- C69: a log file of two records is grown, a second one is added; the clone has the first only.
example : LogReach CloneEx.one.1 CloneEx.one.2 ∧ CloneEx.one.2 ≠ [] ∧ CloneEx.one.1.sync = (.ok, CloneEx.synced) ∧
    (∃ h', LogThen CloneEx.synced CloneEx.one.2 CloneEx.later h') ∧ CloneEx.roCfg.ForClone ∧ Consecutive CloneEx.one.2 ∧
    CloneEx.cloneGet CloneEx.synced 1 = some (.ok, some [10]) ∧ CloneEx.later.log.files.length = 2 ∧
    CloneEx.cloneGet CloneEx.later 2 = some (.keyNotFound, none) ∧ CloneEx.later.get 2 = (.ok, some [20]) :=
  ⟨CloneEx.one_reach, by decide +kernel, CloneEx.synced_ok, ⟨_, CloneEx.later_then⟩, CloneEx.ro_ok,
    consecutive_of_nums (a := 1) (n := 1) (by decide +kernel), by decide +kernel, by decide +kernel, by decide +kernel,
    by decide +kernel⟩

/-- C69 violation: key 1 has the value 10 when the manifest is cloned.  It is overwritten in the same
    log file, and synced; a process that opens the clone now reads the new value.  The handle of the
    snapshot that was returned with the clone is at the old number. -/
theorem C69_later_violation : ∃ (db db1 db' : DB Nat (Flat Nat)) (h h' : List (Rec Nat)),
    LogReach db h ∧ db.sync = (.ok, db1) ∧ LogThen db1 h db' h' ∧ CloneEx.roCfg.ForClone ∧
    (db1.cloneManifest db1.log.persist true).1 = .ok ∧ (db1.cloneManifest db1.log.persist true).2.2 = some 1 ∧
    db1.get 1 = (.ok, some [10]) ∧
    (DB.openClone CloneEx.roCfg true (db1.cloneManifest db1.log.persist true).2.1 db').map (fun c => c.get 1) =
      some (.ok, some [11]) ∧
    (DB.openClone CloneEx.roCfg true (db1.cloneManifest db1.log.persist true).2.1 db').map (fun c => c.getMaxSeqNum) =
      some (some 2) :=
  ⟨_, _, CloneEx.later, _, _, CloneEx.one_reach, CloneEx.synced_ok, CloneEx.later_then, CloneEx.ro_ok,
    by decide +kernel, by decide +kernel, by decide +kernel, by decide +kernel, by decide +kernel⟩

/-- C69 violation: what is not synced when the manifest is cloned is not in the clone, although the
    snapshot handle that is returned with it is at the number of the record and reads of the database
    return it. -/
theorem C69_unsynced_violation : ∃ (db db1 db2 : DB Nat (Flat Nat)) (h h2 : List (Rec Nat)),
    LogReach db h ∧ db.sync = (.ok, db1) ∧ LogThen db1 h db2 h2 ∧ db2.get 1 = (.ok, some [11]) ∧
    (db2.cloneManifest db1.log.persist true).1 = .ok ∧ (db2.cloneManifest db1.log.persist true).2.2 = some 2 ∧
    (DB.openClone CloneEx.roCfg true (db2.cloneManifest db1.log.persist true).2.1 db2).map (fun c => c.get 1) =
      some (.ok, some [10]) :=
  ⟨_, _, CloneEx.written, _, _, CloneEx.one_reach, CloneEx.synced_ok,
    .set (rbRec NIL 1 11) false .refl (by unfold DB.Fits; decide +kernel) (Or.inl rfl) (fun _ => rfl) (Prod.ext (by decide +kernel) rfl),
    by decide +kernel, by decide +kernel, by decide +kernel, by decide +kernel⟩

/-- C69 violation: two synced records are in the clone; a rollback to the first cuts the log file that
    the clone lists, and the clone loses the second. -/
theorem C69_rollback_violation : ∃ (db db1 db2 : DB Nat (Flat Nat)) (h : List (Rec Nat)),
    LogReach db h ∧ db.sync = (.ok, db1) ∧ db1.get 2 = (.ok, some [20]) ∧ db1.rollback 1 = (.ok, db2) ∧
    (DB.openClone CloneEx.roCfg true (db1.cloneManifest db1.log.persist true).2.1 db1).map (fun c => c.get 2) =
      some (.ok, some [20]) ∧
    (DB.openClone CloneEx.roCfg true (db1.cloneManifest db1.log.persist true).2.1 db2).map (fun c => c.get 2) =
      some (.keyNotFound, none) :=
  ⟨lsTwo.1, lsTwo.1.sync.2, (lsTwo.1.sync.2.rollback 1).2, lsTwo.2, rbRun_reach rbInit (Option.some_get _).symm,
    Prod.ext (by decide +kernel) rfl, by decide +kernel, Prod.ext (by decide +kernel) rfl, by decide +kernel, by decide +kernel⟩

/-- C69 violation: the copy of the manifest fails, the call returns `OK`, and there is nothing to open. -/
theorem C69_copy_violation : ∃ (db : DB Nat (Flat Nat)) (h : List (Rec Nat)), LogReach db h ∧
    (db.cloneManifest db.log.persist false).1 = .ok ∧
    DB.openClone CloneEx.roCfg true (db.cloneManifest db.log.persist false).2.1 db = none :=
  ⟨_, _, CloneEx.one_reach, by decide +kernel, rfl⟩

-- C69: the modes and the read-only handle, for the clone above.
example : ∃ c, DB.openClone CloneEx.roCfg true (CloneEx.synced.cloneManifest CloneEx.synced.log.persist true).2.1 CloneEx.later = some c ∧
    c.setRecord (rbRec NIL 5 50) = (.writeViolation, c) ∧ c.get 1 = (.ok, some [11]) :=
  ⟨_, rfl, (C69_readonly CloneEx.roCfg true (some CloneEx.synced.log.persist) CloneEx.later _ rfl).1 _ _, by decide +kernel⟩

end Jungle
