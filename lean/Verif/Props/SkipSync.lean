/-
  C52: with `skipManifestSync` synced records survive as without it.
-/
import Verif.DB.SkipSync
import Verif.DB.Rollback
import Verif.Props.Session

set_option linter.unusedSectionVars false

namespace Jungle
open Spec
variable {K : Type} [LinearOrder K] {S : TableSys K}

/-- C52, partial: with `skipManifestSync`, whatever a crash leaves on disk - at rest, during a sync or
    during a flush -, opening the database again finds a prefix `h'` of the accepted writes that contains
    all that were accepted before the last completed sync, also when this sync did not store the
    manifest.  Missing: a sync before the first write (`C52_empty_sync_violation`), a write that adds a log
    file while a sync is between storing the manifest and clearing its flag (`C52_race_violation`). -/
theorem C52_synced_survive_partial {s : SkipDB K S} {h : List (Rec K)} {n : Nat} (hr : SkipSession s h n)
    {d : Disk K S} (hd : Crash ⟨s.db, [s.mani]⟩ d) (cfg : Cfg) (hc : cfg.logSectionOnly = false) :
    ∃ h', h.take n <+: h' ∧ h' <+: h ∧ ∀ k, (DB.reopen cfg d).getRecordByKey k = Spec.answerRec h' k :=
  C08_synced_survive_partial hr.session.1.preach.1 hd cfg hc

/-- C52, partial: the next session goes on with the same guarantees. -/
theorem C52_sessions_partial {s : SkipDB K S} {h : List (Rec K)} {n : Nat} (hr : SkipSession s h n)
    {d : Disk K S} (hd : Left s.db [s.mani] d) (cfg : Cfg) (hc : cfg.Plain) :
    ∃ h', h.take n <+: h' ∧ h' <+: h ∧ SkipSession (SkipDB.reopen cfg d) h' h'.length ∧
      ∀ k, (DB.reopen cfg d).getRecordByKey k = Spec.answerRec h' k := by
  have hs := hr.session.1
  obtain ⟨q, h1, h2, -⟩ := hs.left hd
  have hs' := SkipSession.reopen cfg d q hr hc hd (h1 cfg hc)
  have hinc : Increasing h := (C04_numbers_increase (Reach.session hs.preach.1)).1
  have hsplit := split_le hinc q
  refine ⟨h.filter (fun r => decide (r.seq ≤ q)), ?_, ⟨_, hsplit.symm⟩, hs', fun k => ?_⟩
  · have hall : (h.take n).filter (fun r => decide (r.seq ≤ q)) = h.take n :=
      List.filter_eq_self.2 (fun r hr => by simpa using h2 r hr)
    refine ⟨(h.drop n).filter (fun r => decide (r.seq ≤ q)), ?_⟩
    conv => rhs; rw [← List.take_append_drop n h]
    rw [List.filter_append, hall]
  · exact C01_getRecordByKey (Reach.session hs'.session.1.preach.1) rfl k

/-- C52: as long as the flag is not set, the manifest on disk lists every log file. -/
theorem C52_manifest_lists_files {s : SkipDB K S} {h : List (Rec K)} {n : Nat} (hr : SkipSession s h n)
    (hn : s.need = false) :
    s.mani.entries.map (·.num) = s.db.log.files.map (·.num) := by
  obtain ⟨hs, hset⟩ := hr.session
  obtain ⟨A, B, -, hi⟩ := hs.preach.1.inv
  have hL := (hi.listed (hset hn).1 (hset hn).2).2 s.mani (by simp)
  have := congrArg (List.map Prod.fst) hL.ent
  simpa [Function.comp_def] using this

namespace SkipSyncEx

def c2 : Cfg := { maxEntries := 2 }
def s0 : SkipDB Nat (Flat Nat) := SkipDB.init _ c2
def s1 := s0.wrote (s0.db.set 5 [1]).2
def s2 := s1.stored s1.db.sync.2.log
def s3 := s2.wrote (s2.db.set 6 [2]).2
/-- this sync does not store the manifest -/
def s4 := s3.stored s3.db.sync.2.log
/-- a log file is added -/
def s5 := s4.wrote (s4.db.set 7 [3]).2
/-- this sync does -/
def s6 := s5.stored s5.db.sync.2.log

def hist : List (Rec Nat) :=
  [{ seq := 1, type := .insertion, key := 5, val := [1] }, { seq := 2, type := .insertion, key := 6, val := [2] },
   { seq := 3, type := .insertion, key := 7, val := [3] }]

theorem plain : c2.Plain := ⟨rfl, rfl, rfl, by decide⟩

theorem r4 : SkipSession s4 (hist.take 2) 2 := by
  have r0 : SkipSession s0 [] 0 := SkipSession.init c2 plain
  have r1 : SkipSession s1 (hist.take 1) 0 :=
    SkipSession.set { seq := NIL, type := .insertion, key := 5, val := [1] } false r0 ⟨by decide, by decide⟩ (Or.inl rfl)
      (fun _ => rfl) rfl
  have r2 : SkipSession s2 (hist.take 1) 1 := SkipSession.sync r1 (by decide) (db' := s1.db.sync.2) rfl
  have r3 : SkipSession s3 (hist.take 2) 1 :=
    SkipSession.set { seq := NIL, type := .insertion, key := 6, val := [2] } false r2 ⟨by decide, by decide⟩ (Or.inl rfl)
      (fun _ => rfl) rfl
  exact SkipSession.sync r3 (by decide) (db' := s3.db.sync.2) rfl

theorem r6 : SkipSession s6 hist 3 := by
  have r5 : SkipSession s5 hist 2 :=
    SkipSession.set { seq := NIL, type := .insertion, key := 7, val := [3] } false r4 ⟨by decide, by decide⟩ (Or.inl rfl)
      (fun _ => rfl) rfl
  exact SkipSession.sync r5 (by decide) (db' := s5.db.sync.2) rfl

/-- The second sync left the manifest alone; the third, after a log file was added, did not. -/
example : s4.mani = s2.mani ∧ s4.mani ≠ s4.db.log.persist ∧ s5.need = true ∧ s6.mani ≠ s4.mani ∧
    s6.db.log.files.length = 2 ∧ s6.need = false := by decide

/-- A crash after the second sync: both records are found. -/
example : (DB.reopen c2 (⟨s4.mani, s4.db.log.files.map LogFile.onDisk, s4.db.table⟩ : Disk Nat (Flat Nat))).get 6 = (.ok, some [2]) := by
  decide

/-! #### a sync before the first write -/

def e1 := s0.stored s0.db.sync.2.log
def e2 := e1.wrote (e1.db.set 5 [1]).2
def e3 := e2.stored e2.db.sync.2.log
def ed : Disk Nat (Flat Nat) := ⟨e3.mani, e3.db.log.files.map LogFile.onDisk, e3.db.table⟩
def e4 := (DB.reopen c2 ed).sync.2
def e5 := (e4.flushLogs {} NIL).2

/-! #### a write during a sync -/

/-- the sync has stored the manifest, and not yet cleared the flag -/
def t1 : SkipDB Nat (Flat Nat) := { s3.stored s3.db.sync.2.log with mani := s3.db.sync.2.log.persist, need := true }
/-- the write adds a log file and sets the flag -/
def t2 := t1.wrote (t1.db.set 7 [3]).2
/-- the sync clears the flag and returns OK -/
def t3 := { t2 with need := false }
/-- another sync -/
def t4 := t3.stored t3.db.sync.2.log
def td : Disk Nat (Flat Nat) := ⟨t4.mani, t4.db.log.files.map LogFile.onDisk, t4.db.table⟩

def lo : Cfg := { maxEntries := 2, logSectionOnly := true }
def o0 : SkipDB Nat (Flat Nat) := SkipDB.init _ lo
def o1 := o0.stored o0.db.sync.2.log
def o2 := o1.wrote (o1.db.set 5 [1]).2
def o3 := o2.stored o2.db.sync.2.log
def od : Disk Nat (Flat Nat) := ⟨o3.mani, o3.db.log.files.map LogFile.onDisk, o3.db.table⟩

end SkipSyncEx

/-- C52, violation: a sync of an empty database stores a manifest in which the log file has no smallest
    number, and clears the flag; the sync after the first write does not store it again.  After a crash
    the synced record is found, is synced again with status OK, and disappears at the next flush
    (src/log_mgr.cc:1303-1308, src/memtable.cc:964-980 and 1503-1559). -/
theorem C52_empty_sync_violation :
    ∃ (cfg : Cfg) (s1 s2 s3 : SkipDB Nat (Flat Nat)) (db1 db2 : DB Nat (Flat Nat)), cfg.Plain ∧
      (∃ d1, (SkipDB.init (Flat Nat) cfg).db.sync = (.ok, d1) ∧ s1 = (SkipDB.init (Flat Nat) cfg).stored d1.log) ∧
      (∃ d2, s1.db.set 5 [1] = (.ok, d2) ∧ s2 = s1.wrote d2) ∧
      (∃ d3, s2.db.sync = (.ok, d3) ∧ s3 = s2.stored d3.log) ∧
      (DB.reopen cfg ⟨s3.mani, s3.db.log.files.map LogFile.onDisk, s3.db.table⟩).sync = (.ok, db1) ∧
      db1.get 5 = (.ok, some [1]) ∧
      db1.flushLogs {} NIL = (.ok, db2) ∧ db2.get 5 = (.keyNotFound, none) :=
  ⟨SkipSyncEx.c2, SkipSyncEx.e1, SkipSyncEx.e2, SkipSyncEx.e3, SkipSyncEx.e4, SkipSyncEx.e5, SkipSyncEx.plain, ⟨_, rfl, rfl⟩, ⟨_, rfl, rfl⟩,
    ⟨_, rfl, rfl⟩, rfl, rfl, rfl, rfl⟩

/-- C52, violation: in log-section mode the synced record is lost at once: the manifest says that the
    newest log file is empty, and the file is dropped (src/log_manifest.cc:324-347). -/
theorem C52_log_section_violation :
    ∃ (cfg : Cfg) (s1 s2 s3 : SkipDB Nat (Flat Nat)), cfg.logSectionOnly = true ∧
      (∃ d1, (SkipDB.init (Flat Nat) cfg).db.sync = (.ok, d1) ∧ s1 = (SkipDB.init (Flat Nat) cfg).stored d1.log) ∧
      (∃ d2, s1.db.set 5 [1] = (.ok, d2) ∧ s2 = s1.wrote d2) ∧
      (∃ d3, s2.db.sync = (.ok, d3) ∧ s3 = s2.stored d3.log) ∧
      s3.db.get 5 = (.ok, some [1]) ∧
      (DB.reopenOnly cfg true ⟨s3.mani, s3.db.log.files.map LogFile.onDisk, s3.db.table⟩).get 5 = (.keyNotFound, none) :=
  ⟨SkipSyncEx.lo, SkipSyncEx.o1, SkipSyncEx.o2, SkipSyncEx.o3, rfl, ⟨_, rfl, rfl⟩, ⟨_, rfl, rfl⟩, ⟨_, rfl, rfl⟩, rfl, rfl⟩

/-- C52, violation: a write that adds a log file between the store of the manifest by a sync and the
    moment the sync clears the flag (src/log_mgr.cc:1305-1307) is forgotten: the next sync returns OK without storing
    a manifest that lists the log file, and after a crash the synced record is lost. -/
theorem C52_race_violation :
    ∃ (s s1 s2 s4 : SkipDB Nat (Flat Nat)) (h : List (Rec Nat)) (n : Nat) (cfg : Cfg) (d3 : DB Nat (Flat Nat)),
      SkipSession s h n ∧ cfg.Plain ∧
      -- the sync writes the log file and stores the manifest
      (∃ d1, s.db.sync = (.ok, d1) ∧ s1 = ⟨d1, d1.log.persist, true⟩) ∧
      -- the write adds a log file
      (∃ d2, s1.db.set 7 [3] = (.ok, d2) ∧ s2 = s1.wrote d2 ∧ s2.need = true ∧ d2.log.maxNum ≠ s1.db.log.maxNum) ∧
      -- the sync clears the flag; the next sync returns OK
      s2.db.sync = (.ok, d3) ∧ s4 = ({ s2 with need := false } : SkipDB Nat (Flat Nat)).stored d3.log ∧
      s4.db.get 7 = (.ok, some [3]) ∧
      (DB.reopen cfg ⟨s4.mani, s4.db.log.files.map LogFile.onDisk, s4.db.table⟩).get 7 = (.keyNotFound, none) := by
  refine ⟨SkipSyncEx.s3, SkipSyncEx.t1, SkipSyncEx.t2, SkipSyncEx.t4, SkipSyncEx.hist.take 2, 1, SkipSyncEx.c2, SkipSyncEx.t2.db.sync.2, ?_, SkipSyncEx.plain,
    ⟨_, rfl, rfl⟩, ⟨_, rfl, rfl, rfl, by decide⟩, rfl, rfl, rfl, rfl⟩
  have r0 : SkipSession SkipSyncEx.s0 [] 0 := SkipSession.init SkipSyncEx.c2 SkipSyncEx.plain
  have r1 : SkipSession SkipSyncEx.s1 (SkipSyncEx.hist.take 1) 0 :=
    SkipSession.set { seq := NIL, type := .insertion, key := 5, val := [1] } false r0 ⟨by decide, by decide⟩ (Or.inl rfl)
      (fun _ => rfl) rfl
  have r2 : SkipSession SkipSyncEx.s2 (SkipSyncEx.hist.take 1) 1 := SkipSession.sync r1 (by decide) (db' := SkipSyncEx.s1.db.sync.2) rfl
  exact SkipSession.set { seq := NIL, type := .insertion, key := 6, val := [2] } false r2 ⟨by decide, by decide⟩ (Or.inl rfl)
      (fun _ => rfl) rfl

end Jungle
