/-
  Crashes: C07 (a crash during a flush is harmless), C08 (synced records survive).
-/
import Mathlib.Order.Nat
import Verif.DB.CrashLemmas
import Verif.Props.KV

set_option linter.unusedSectionVars false

namespace Jungle
open Spec
variable {K : Type} [LinearOrder K] {S : TableSys K}

/-- C08, partial: a crash at any time (while idle, during a sync, during a flush of synced records)
    leaves a database that answers every read as after a prefix `h'` of the accepted writes, and
    `h'` contains every write accepted before the last completed sync.  Missing: a crash during a
    flush that takes unsynced records (`C08_beyond_flush_violation`), a restart, before
    that, after a crash that left a torn record or came before the first sync
    (`C08_second_session_violation`, `C08_batch_after_torn_tail_violation`; the other restarts are in
    `PReach.reopen`, see Verif/Props/Session.lean), a tail with a checksum error
    (`C08_checksum_violation`), a sync without fsync. -/
theorem C08_synced_survive_partial {p : PDB K S} {h : List (Rec K)} {n : Nat} (hr : PReach p h n)
    {d : Disk K S} (hd : Crash p d) (cfg : Cfg) (hc : cfg.logSectionOnly = false) :
    ∃ h', h.take n <+: h' ∧ h' <+: h ∧
      ∀ k, (DB.reopen cfg d).getRecordByKey k = Spec.answerRec h' k := by
  obtain ⟨A, B, rfl, hi⟩ := hr.inv
  cases hd with
  | idle hm ht hs =>
    obtain ⟨F, G, hL, hn⟩ := hi.cand _ hm
    obtain ⟨h1, h2, h3⟩ := hi.idle hL hn ht hs cfg hc
    exact ⟨_, h2, (List.prefix_append_right_inj A).2 h1, h3⟩
  | inSync P g Q hm ht hf hsf hP hg hQ =>
    obtain ⟨F, G, hL, hn⟩ := hi.cand _ hm
    obtain ⟨B', h1, h2, h3⟩ := hi.inSync hL hn ht hf hsf hP hg hQ cfg hc
    exact ⟨_, h2, (List.prefix_append_right_inj A).2 h1, h3⟩
  | inFlush o m hp hb hsafe hin =>
    obtain ⟨F, G, hL, hn⟩ := hi.cand _ hin.1
    have h0 := hi.idle (d := ⟨d.mani, p.db.log.files.map LogFile.onDisk, p.db.table⟩) hL hn rfl
      (fun f hf => Or.inl (by
        show List.find? _ (List.map _ _) = _
        rw [List.find?_map]
        have := hi.inv.log.file?_mem hf
        unfold LogMgr.file? at this
        have e : ((fun x : DFile K => x.num == f.num) ∘ LogFile.onDisk) = (fun g : LogFile K => g.num == f.num) := rfl
        rw [e, this]; rfl)) cfg hc
    exact ⟨_, h0.2.1, (List.prefix_append_right_inj A).2 h0.1,
      fun k => hi.inFlush hL hp hb hsafe hin cfg hc k⟩

/-- C08 for one key: if the last write of a key was accepted before the last completed sync, every
    later open returns it, with its value, meta data, type and number. -/
theorem C08_synced_value_partial {p : PDB K S} {h : List (Rec K)} {n : Nat} (hr : PReach p h n)
    {d : Disk K S} (hd : Crash p d) (cfg : Cfg) (hc : cfg.logSectionOnly = false) (k : K)
    (hk : lastWrite h k = lastWrite (h.take n) k) :
    (DB.reopen cfg d).getRecordByKey k = Spec.answerRec h k := by
  obtain ⟨h', h1, h2, h3⟩ := C08_synced_survive_partial hr hd cfg hc
  rw [h3 k]
  have : lastWrite h' k = lastWrite h k := by
    obtain ⟨X, rfl⟩ := h1
    obtain ⟨Y, hY⟩ := h2
    have e1 : lastWrite (h.take n ++ (X ++ Y)) k = lastWrite (h.take n) k := by
      rw [← List.append_assoc, hY]; exact hk
    rw [hk, lastWrite_append]
    cases hX : lastWrite X k with
    | none => rfl
    | some x =>
      exfalso
      -- a later write of the key would be the last one
      have hinc : Increasing h := by
        obtain ⟨A, B, rfl, hi⟩ := hr.inv
        exact hi.inv.log.inc
      have hmem : ∀ {L : List (Rec K)} {r}, lastWrite L k = some r → r ∈ L := by
        intro L r hl
        unfold lastWrite at hl
        exact (List.mem_filter.1 (List.mem_of_getLast? hl)).1
      cases hXY : lastWrite (X ++ Y) k with
      | none => rw [(lastWrite_append_none hXY).1] at hX; cases hX
      | some y =>
        rw [lastWrite_append, hXY] at e1
        simp only [Option.some_or] at e1
        have m1 : y ∈ X ++ Y := hmem hXY
        have m2 : y ∈ h.take n := hmem e1.symm
        rw [← hY, List.append_assoc] at hinc
        have := (List.pairwise_append.1 hinc).2.2 y m2 y m1
        exact Nat.lt_irrefl _ this
  unfold Spec.answerRec
  rw [this]

/-- C07, partial: a crash during a flush of synced records, at any point (some of the tables
    written, all written, some log files removed), leaves a database that answers every read
    exactly as a crash before the flush would have.  Missing: re-running the flush afterwards, and
    a flush of unsynced records (`C08_beyond_flush_violation`). -/
theorem C07_crash_in_flush_partial {p : PDB K S} {h : List (Rec K)} {n : Nat} (hr : PReach p h n)
    {o : LogMgr.FlushOpts} {m : Nat} (hp : o.purgeOnly = false) (hb : o.beyondLastSync = false)
    (hsafe : p.db.SafeFlush o m) {d : Disk K S} (hin : InFlush p o m d)
    {d0 : Disk K S} (h0 : Crash.Idle p d0) (hsame : d0.mani = d.mani)
    (cfg : Cfg) (hc : cfg.logSectionOnly = false) (k : K) :
    (DB.reopen cfg d).getRecordByKey k = (DB.reopen cfg d0).getRecordByKey k ∧
    (DB.reopen cfg d).get k = (DB.reopen cfg d0).get k := by
  obtain ⟨A, B, rfl, hi⟩ := hr.inv
  obtain ⟨F, G, hL, hn⟩ := hi.cand _ hin.1
  have e : (DB.reopen cfg d).getRecordByKey k = (DB.reopen cfg d0).getRecordByKey k := by
    rw [hi.inFlush hL hp hb hsafe hin cfg hc k]
    rw [← hsame] at hL
    rw [(hi.idle hL hn h0.2.1 h0.2.2 cfg hc).2.2 k]
  exact ⟨e, by rw [DB.get_of_record, DB.get_of_record, e]⟩

/-! ### a run: records synced, flushed in part, one rotation, one unsynced record -/

namespace CrashRun

def c2 : Cfg := { maxEntries := 2 }
def d0 : DB Nat (Flat Nat) := DB.init _ c2
def d1 := (d0.set 5 [1]).2
def d2 := (d1.set 6 [2]).2
def d3 := (d2.del 5).2
def d4 := d3.sync.2
def d5 := (d4.set 7 [3]).2
def h5 : List (Rec Nat) :=
  [{ seq := 1, type := .insertion, key := 5, val := [1] },
   { seq := 2, type := .insertion, key := 6, val := [2] },
   { seq := 3, type := .deletion, key := 5 },
   { seq := 4, type := .insertion, key := 7, val := [3] }]

def p5 : PDB Nat (Flat Nat) := ⟨d5, [d4.log.persist]⟩

theorem r5 : PReach p5 h5 3 := by
  have r0 : PReach (⟨d0, [d0.log.persist]⟩ : PDB Nat (Flat Nat)) [] 0 :=
    PReach.init c2 ⟨rfl, rfl, rfl, by decide⟩
  have r1 : PReach (⟨d1, [d0.log.persist]⟩ : PDB Nat (Flat Nat)) (h5.take 1) 0 :=
    PReach.set { seq := NIL, type := .insertion, key := 5, val := [1] } false r0 ⟨by decide, by decide⟩ (Or.inl rfl)
      (fun _ => rfl) rfl
  have r2 : PReach (⟨d2, [d0.log.persist]⟩ : PDB Nat (Flat Nat)) (h5.take 2) 0 :=
    PReach.set { seq := NIL, type := .insertion, key := 6, val := [2] } false r1 ⟨by decide, by decide⟩ (Or.inl rfl)
      (fun _ => rfl) rfl
  have r3 : PReach (⟨d3, [d0.log.persist, d2.log.rotated]⟩ : PDB Nat (Flat Nat)) (h5.take 3) 0 :=
    PReach.set { seq := NIL, type := .deletion, key := 5 } true r2 ⟨by decide, by decide⟩ (Or.inl rfl)
      (fun h => absurd h (by decide)) rfl
  have r4 : PReach (⟨d4, [d4.log.persist]⟩ : PDB Nat (Flat Nat)) (h5.take 3) 3 := PReach.sync r3 rfl
  exact PReach.set { seq := NIL, type := .insertion, key := 7, val := [3] } false r4 ⟨by decide, by decide⟩ (Or.inl rfl)
      (fun _ => rfl) rfl

example : d5.log.files.length = 2 := by decide

/-- A crash while idle: record 4 is lost. -/
def x0 : Disk Nat (Flat Nat) := ⟨d4.log.persist, d5.log.files.map LogFile.onDisk, []⟩

theorem x0_crash : Crash.Idle p5 x0 := by
  refine ⟨by simp [p5, x0], rfl, ?_⟩
  show ∀ f ∈ d5.log.files, _
  unfold Survives
  decide

/-- A crash in the middle of writing record 4. -/
def x1 : Disk Nat (Flat Nat) :=
  ⟨d4.log.persist, [⟨0, (d5.log.files.getD 0 (LogFile.create 0 0 0)).disk, .clean⟩,
    ⟨1, (d5.log.files.getD 1 (LogFile.create 0 0 0)).disk, .cut⟩], []⟩

theorem x1_crash : Crash p5 x1 := by
  refine Crash.inSync x1 [d5.log.files.getD 0 (LogFile.create 0 0 0)] (d5.log.files.getD 1 (LogFile.create 0 0 0)) []
    (by simp [p5, x1]) rfl rfl (by decide) ?_ (Or.inr ⟨_, .cut, rfl, by decide, List.prefix_rfl, by decide⟩) (by simp)
  unfold Survives
  decide

/-- A crash in a flush: the tables have record 2 and not yet record 1. -/
def x2 : Disk Nat (Flat Nat) := ⟨d4.log.persist, d5.log.files.map LogFile.onDisk,
  [{ seq := 2, type := .insertion, key := 6, val := [2] }]⟩

theorem safe5 (o : LogMgr.FlushOpts) : p5.db.SafeFlush o NIL := Or.inl rfl

theorem x2_torn : (Flat Nat).torn p5.db.table
    (LogMgr.gather 3 false (p5.db.log.files.filter (fun f => decide (0 ≤ f.num ∧ f.num ≤ 1))))
    (LogMgr.gatherCheckpoints 3 (p5.db.log.files.filter (fun f => decide (0 ≤ f.num ∧ f.num ≤ 1)))) x2.table :=
  ⟨fun k => k == 6, rfl⟩

theorem surv5 {t} {d : Disk Nat (Flat Nat)} (hd : d = ⟨d4.log.persist, d5.log.files.map LogFile.onDisk, t⟩) :
    ∀ f ∈ p5.db.log.files, if 0 ≤ f.num ∧ f.num < 1 ∧ f.num < 0 then d.file f.num = none
      else Survives f (d.file f.num) := by
  subst hd
  show ∀ f ∈ d5.log.files, _
  intro f hf
  rw [if_neg (by omega)]
  exact x0_crash.2.2 f hf

theorem x2_in : InFlush p5 {} NIL x2 :=
  ⟨by simp [p5, x2], by decide, 0, 1, 3, 0, rfl, Or.inl ⟨Nat.le_refl _, x2_torn⟩, surv5 rfl⟩

/-- A crash in a flush after the first log file was removed. -/
def x3 : Disk Nat (Flat Nat) := ⟨d4.log.persist, (d5.log.files.map LogFile.onDisk).drop 1,
  (d5.log.flush {} NIL d5.table (Flat Nat).setBatch).2.2⟩

theorem x3_files : ∀ f ∈ p5.db.log.files, if 0 ≤ f.num ∧ f.num < 1 ∧ f.num < 1 then x3.file f.num = none
    else Survives f (x3.file f.num) := by
  show ∀ f ∈ d5.log.files, _
  unfold Survives
  decide

theorem x3_in : InFlush p5 {} NIL x3 :=
  ⟨by simp [p5, x3], by decide, 0, 1, 3, 1, rfl, Or.inr rfl, x3_files⟩

example : (DB.reopen c2 x0).getRecordByKey 6 = Spec.answerRec h5 6 :=
  C08_synced_value_partial r5 (Crash.idle _ x0_crash.1 x0_crash.2.1 x0_crash.2.2) c2 rfl 6 (by decide)
example : (DB.reopen c2 x1).getRecordByKey 5 = Spec.answerRec h5 5 :=
  C08_synced_value_partial r5 x1_crash c2 rfl 5 (by decide)
example : ∃ h', h5.take 3 <+: h' ∧ h' <+: h5 ∧
    ∀ k, (DB.reopen c2 x3).getRecordByKey k = Spec.answerRec h' k :=
  C08_synced_survive_partial r5 (Crash.inFlush _ {} NIL rfl rfl (safe5 _) x3_in) c2 rfl
example (k : Nat) : (DB.reopen c2 x2).get k = (DB.reopen c2 x0).get k :=
  (C07_crash_in_flush_partial r5 (o := {}) (m := NIL) rfl rfl (safe5 _) x2_in x0_crash rfl c2 rfl k).2
example (k : Nat) : (DB.reopen c2 x3).get k = (DB.reopen c2 x0).get k :=
  (C07_crash_in_flush_partial r5 (o := {}) (m := NIL) rfl rfl (safe5 _) x3_in x0_crash rfl c2 rfl k).2
example : (DB.reopen c2 x3).get 6 = (.ok, some [2]) ∧ (DB.reopen c2 x3).get 5 = (.keyNotFound, none) ∧
    (DB.reopen c2 x3).get 7 = (.keyNotFound, none) := ⟨rfl, rfl, rfl⟩

end CrashRun

/-! ### where the claims are false of the code -/

namespace CrashBad
open CrashRun

/-! #### a sync that is interrupted before its manifest is written, then a second session -/

def m0 : DB Nat (Flat Nat) := DB.init _ c2
def m1 := (m0.set 5 [1]).2
def mp : PDB Nat (Flat Nat) := ⟨m1, [m0.log.persist]⟩
/-- The log file is written, the manifest is not. -/
def mx : Disk Nat (Flat Nat) := ⟨m0.log.persist, m1.sync.2.log.files.map LogFile.onDisk, []⟩
def m2 := DB.reopen c2 mx
def m3 := m2.sync.2
def m4 := (m3.flushLogs {} NIL).2

theorem mp_reach : PReach mp [{ seq := 1, type := .insertion, key := 5, val := [1] }] 0 :=
  PReach.set { seq := NIL, type := .insertion, key := 5, val := [1] } false
    (PReach.init c2 ⟨rfl, rfl, rfl, by decide⟩) ⟨by decide, by decide⟩ (Or.inl rfl) (fun _ => rfl) rfl

theorem mx_crash : Crash mp mx := by
  refine Crash.inSync mx [] (m1.log.files.getD 0 (LogFile.create 0 0 0)) [] (by simp [mp, mx]) rfl rfl
    (by decide) (by simp) (Or.inr ⟨_, .clean, rfl, by decide, by decide, List.prefix_rfl⟩) (by simp)

end CrashBad

/-- C08, violation: a record that was recovered after a crash, and then synced with status OK,
    disappears at the next flush (src/memtable.cc:964-980 takes the smallest number from the
    manifest, which does not know it yet; src/memtable.cc:1519-1545 then finds nothing to flush, and
    src/log_mgr.cc:1520-1540 marks the records as flushed). -/
theorem C08_second_session_violation :
    ∃ (p : PDB Nat (Flat Nat)) (h : List (Rec Nat)) (n : Nat) (d : Disk Nat (Flat Nat)) (cfg : Cfg),
      PReach p h n ∧ Crash p d ∧ cfg.Plain ∧
      (DB.reopen cfg d).get 5 = (.ok, some [1]) ∧
      ∃ db1 db2, (DB.reopen cfg d).sync = (.ok, db1) ∧ db1.get 5 = (.ok, some [1]) ∧
        db1.flushLogs {} NIL = (.ok, db2) ∧ db2.get 5 = (.keyNotFound, none) :=
  ⟨CrashBad.mp, _, 0, CrashBad.mx, CrashRun.c2, CrashBad.mp_reach, CrashBad.mx_crash, ⟨rfl, rfl, rfl, by decide⟩,
    rfl, CrashBad.m3, CrashBad.m4, rfl, rfl, rfl, rfl⟩

namespace CrashBad
open CrashRun

/-! #### a torn tail, a batch, a sync -/

def b1 := (m0.set 5 [1]).2.sync.2
def b2 := (b1.set 6 [2]).2
def bp : PDB Nat (Flat Nat) := ⟨b2, [b1.log.persist]⟩
/-- A crash while record 2 is being written. -/
def bx : Disk Nat (Flat Nat) := ⟨b1.log.persist, b2.log.files.map (fun f => { f.onDisk with tail := .cut }), []⟩
def b3 := DB.reopen c2 bx
def b4 := (b3.setRecordBatch [{ seq := NIL, type := .insertion, key := 7, val := [3] }]).2
def b5 := b4.sync.2

theorem bp_reach : PReach bp
    [{ seq := 1, type := .insertion, key := 5, val := [1] }, { seq := 2, type := .insertion, key := 6, val := [2] }] 1 :=
  PReach.set { seq := NIL, type := .insertion, key := 6, val := [2] } false
    (PReach.sync mp_reach rfl) ⟨by decide, by decide⟩ (Or.inl rfl) (fun _ => rfl) rfl

theorem bx_crash : Crash bp bx := by
  refine Crash.inSync bx [] (b2.log.files.getD 0 (LogFile.create 0 0 0)) [] (by simp [bp, bx]) rfl rfl
    (by decide) (by simp) (Or.inr ⟨_, .cut, rfl, by decide, List.prefix_rfl, by decide⟩) (by simp)

end CrashBad

/-- C08, violation: after a crash that left an incomplete record at the end of the newest log file, a
    batch is accepted, `sync` returns OK, and the batch is not on disk: opening again what the handle
    has written does not find it (src/log_mgr.cc:799-831 appends to the reopened file, and
    src/log_file.cc:478-484 skips writing and returns OK). -/
theorem C08_batch_after_torn_tail_violation :
    ∃ (p : PDB Nat (Flat Nat)) (h : List (Rec Nat)) (n : Nat) (d : Disk Nat (Flat Nat)) (cfg : Cfg),
      PReach p h n ∧ Crash p d ∧ cfg.Plain ∧
      ∃ db1 db2, (DB.reopen cfg d).setRecordBatch [{ seq := NIL, type := .insertion, key := 7, val := [3] }] = (.ok, db1) ∧
        db1.sync = (.ok, db2) ∧ db2.get 7 = (.ok, some [3]) ∧
        (DB.reopen cfg db2.diskOf).get 7 = (.keyNotFound, none) :=
  ⟨CrashBad.bp, _, 1, CrashBad.bx, CrashRun.c2, CrashBad.bp_reach, CrashBad.bx_crash, ⟨rfl, rfl, rfl, by decide⟩,
    CrashBad.b4, CrashBad.b5, rfl, rfl, rfl, rfl⟩

namespace CrashBad
open CrashRun

/-! #### an empty database, closed and opened again, then a batch -/

def e1 := DB.reopen c2 m0.diskOf
def e2 := (e1.setRecordBatch [{ seq := NIL, type := .insertion, key := 7, val := [3] }]).2
def e3 := e2.sync.2

end CrashBad

/-- C08, violation: a database that was created, closed and opened again accepts a batch and syncs
    it with status OK; nothing is written (the reopened memtable has no smallest number,
    src/memtable.cc:964-980; a batch does not move to a new file, src/log_mgr.cc:799-831; the number
    given to the records is the invalid one, src/memtable.cc:345-394). -/
theorem C08_batch_after_empty_reopen_violation :
    ∃ (cfg : Cfg), cfg.Plain ∧ ∃ db1 db2,
      (DB.reopen cfg (DB.init (Flat Nat) cfg).diskOf).setRecordBatch
        [{ seq := NIL, type := .insertion, key := 7, val := [3] }] = (.ok, db1) ∧
      db1.sync = (.ok, db2) ∧ db2.get 7 = (.ok, some [3]) ∧
      (DB.reopen cfg db2.diskOf).get 7 = (.keyNotFound, none) :=
  ⟨CrashRun.c2, ⟨rfl, rfl, rfl, by decide⟩, CrashBad.e2, CrashBad.e3, rfl, rfl, rfl, rfl⟩

/-- C08, violation: a checksum error in what follows the synced records of the only log file makes
    the synced records unreadable (src/log_manifest.cc:415-451 replaces the file by an empty one). -/
theorem C08_checksum_violation :
    ∃ (p : PDB Nat (Flat Nat)) (h : List (Rec Nat)) (cfg : Cfg), PReach p h h.length ∧ cfg.Plain ∧
      ∃ f, p.db.log.files = [f] ∧
        p.db.getRecordByKey 5 = (.ok, some { seq := 1, type := .insertion, key := 5, val := [1] }) ∧
        (DB.reopen cfg ⟨p.db.log.persist, [{ f.onDisk with tail := .bad }], p.db.table⟩).getRecordByKey 5
          = (.keyNotFound, none) :=
  ⟨⟨CrashBad.b1, [CrashBad.b1.log.persist]⟩, _, CrashRun.c2, PReach.sync CrashBad.mp_reach rfl,
    ⟨rfl, rfl, rfl, by decide⟩, _, rfl, rfl, rfl⟩

namespace CrashBad
open CrashRun

def u2 := (m1.set 6 [2]).2
/-- A flush of unsynced records is interrupted: the table of key 6 is written, the one of key 5 is
    not. -/
def ux : Disk Nat (Flat Nat) := ⟨m0.log.persist, u2.log.files.map LogFile.onDisk,
  [{ seq := 2, type := .insertion, key := 6, val := [2] }]⟩
def uh : List (Rec Nat) :=
  [{ seq := 1, type := .insertion, key := 5, val := [1] }, { seq := 2, type := .insertion, key := 6, val := [2] }]

theorem u_reach : PReach (⟨u2, [m0.log.persist]⟩ : PDB Nat (Flat Nat)) uh 0 :=
  PReach.set { seq := NIL, type := .insertion, key := 6, val := [2] } false
    mp_reach ⟨by decide, by decide⟩ (Or.inl rfl) (fun _ => rfl) rfl

end CrashBad

/-- C08, violation for a flush that takes unsynced records (the default of the background flusher,
    src/flusher.cc:237): a crash inside it may keep a later write and lose an earlier one, so what is
    recovered is not a prefix of the accepted writes. -/
theorem C08_beyond_flush_violation :
    ∃ (p : PDB Nat (Flat Nat)) (h : List (Rec Nat)) (d : Disk Nat (Flat Nat)) (cfg : Cfg),
      PReach p h 0 ∧ cfg.Plain ∧ InFlush p { beyondLastSync := true } NIL d ∧
      ¬ ∃ h', h' <+: h ∧ ∀ k, (DB.reopen cfg d).getRecordByKey k = Spec.answerRec h' k := by
  refine ⟨_, CrashBad.uh, CrashBad.ux, CrashRun.c2, CrashBad.u_reach, ⟨rfl, rfl, rfl, by decide⟩,
    ⟨by simp [CrashBad.ux], by decide, 0, 0, 2, 0, rfl, Or.inl ⟨Nat.le_refl _, fun k => k == 6, rfl⟩, ?_⟩, ?_⟩
  · show ∀ f ∈ CrashBad.u2.log.files, _
    unfold Survives
    decide
  · rintro ⟨h', hp, hk⟩
    have h5 := hk 5
    have h6 := hk 6
    have e5 : (DB.reopen CrashRun.c2 CrashBad.ux).getRecordByKey 5 = (.keyNotFound, none) := rfl
    have e6 : (DB.reopen CrashRun.c2 CrashBad.ux).getRecordByKey 6 =
      (.ok, some { seq := 2, type := .insertion, key := 6, val := [2] }) := rfl
    rw [e5] at h5
    rw [e6] at h6
    obtain ⟨X, hX⟩ := hp
    have hm := List.prefix_iff_eq_take.1 ⟨X, hX⟩
    have hl : h'.length ≤ 2 := by
      have := congrArg List.length hX
      simp [CrashBad.uh] at this; omega
    generalize h'.length = j at hm hl
    subst hm
    have : j = 0 ∨ j = 1 ∨ j = 2 := by omega
    rcases this with rfl | rfl | rfl
    · exact absurd h6 (by decide)
    · exact absurd h6 (by decide)
    · exact absurd h5 (by decide)

namespace CrashBad
open CrashRun

def q2 := (b1.set 6 [2]).2
def q3 := (q2.flushLogs { beyondLastSync := true } NIL).2
def q4 := DB.reopen c2 ⟨q3.log.persist, q3.log.files.map LogFile.onDisk, q3.table⟩
def q5 := (q4.set 7 [3]).2

theorem q3_reach : PReach (⟨q3, [q3.log.persist]⟩ : PDB Nat (Flat Nat)) uh 1 :=
  PReach.flush { beyondLastSync := true } NIL
    (PReach.set { seq := NIL, type := .insertion, key := 6, val := [2] } false
      (PReach.sync mp_reach rfl) ⟨by decide, by decide⟩ (Or.inl rfl) (fun _ => rfl) rfl) rfl (Or.inl rfl) rfl

end CrashBad

/-- C04, violation: after a completed flush of unsynced records and a restart, the next write gets a
    number that a record in the tables already has. -/
theorem C04_restart_reuse_violation :
    ∃ (p : PDB Nat (Flat Nat)) (h : List (Rec Nat)) (n : Nat) (d : Disk Nat (Flat Nat)) (cfg : Cfg),
      PReach p h n ∧ Crash p d ∧ cfg.Plain ∧
      ∃ db1, (DB.reopen cfg d).set 7 [3] = (.ok, db1) ∧
        db1.getRecordByKey 6 = (.ok, some { seq := 2, type := .insertion, key := 6, val := [2] }) ∧
        db1.getRecordByKey 7 = (.ok, some { seq := 2, type := .insertion, key := 7, val := [3] }) :=
  ⟨_, _, 1, ⟨CrashBad.q3.log.persist, CrashBad.q3.log.files.map LogFile.onDisk, CrashBad.q3.table⟩, CrashRun.c2,
    CrashBad.q3_reach,
    Crash.idle _ (by simp) rfl (by
      show ∀ f ∈ CrashBad.q3.log.files, _
      unfold Survives; decide), ⟨rfl, rfl, rfl, by decide⟩, CrashBad.q5, rfl, rfl, rfl⟩

end Jungle
