/-
  C53: a sync with fsync protects against power failures, also after syncs without fsync.
-/
import Verif.DB.NoFsync
import Verif.Props.Crash
import Verif.DB.Flat
import Mathlib.Order.Nat

set_option linter.unusedSectionVars false

namespace Jungle
open Spec
variable {K : Type} [LinearOrder K] {S : TableSys K}

/-- C53, partial: whatever a power failure leaves on disk, opening the database finds a prefix `h'` of
    the accepted writes that contains all that were accepted before the last completed `sync(true)`,
    however many calls of `sync(false)` came before and after it.  Missing: a `sync(false)` that writes more
    than the newest log file (`C53_forgotten_fsync_violation`), a power failure during a call. -/
theorem C53_power_failure_partial {s : FDB K S} {h : List (Rec K)} {n m : Nat} (hr : FReach s h n m)
    {d : Disk K S} (hd : PowerLoss s d) (cfg : Cfg) (hc : cfg.logSectionOnly = false) :
    ∃ h', h.take m <+: h' ∧ h' <+: h ∧ ∀ k, (DB.reopen cfg d).getRecordByKey k = Spec.answerRec h' k :=
  hr.power hd cfg hc

/-- C53, partial: when only the process is lost, `sync(false)` protects as `sync(true)` does. -/
theorem C53_process_crash_partial {s : FDB K S} {h : List (Rec K)} {n m : Nat} (hr : FReach s h n m)
    {d : Disk K S} (hd : Crash ⟨s.db, s.cands⟩ d) (cfg : Cfg) (hc : cfg.logSectionOnly = false) :
    ∃ h', h.take n <+: h' ∧ h' <+: h ∧ ∀ k, (DB.reopen cfg d).getRecordByKey k = Spec.answerRec h' k :=
  C08_synced_survive_partial hr.preach hd cfg hc

namespace NoFsyncEx

def c2 : Cfg := { maxEntries := 2 }
def s0 : FDB Nat (Flat Nat) := FDB.init _ c2
def wrote (s : FDB Nat (Flat Nat)) (db' : DB Nat (Flat Nat)) : FDB Nat (Flat Nat) :=
  ⟨db', if db'.log.maxNum = s.db.log.maxNum then s.cands else s.cands ++ [s.db.log.rotated], s.dur⟩
def s1 := wrote s0 (s0.db.set 5 [1]).2
def s2 := s1.syncOn s1.db.sync.2.log
def s3 := wrote s2 (s2.db.set 6 [2]).2
def s4 := s3.syncOff s3.db.sync.2.log
/-- a log file is added -/
def s5 := wrote s4 (s4.db.set 7 [3]).2
def s6 := s5.syncOn s5.db.sync.2.log

def hist : List (Rec Nat) :=
  [{ seq := 1, type := .insertion, key := 5, val := [1] }, { seq := 2, type := .insertion, key := 6, val := [2] },
   { seq := 3, type := .insertion, key := 7, val := [3] }]

theorem plain : c2.Plain := ⟨rfl, rfl, rfl, by decide⟩

theorem r4 : FReach s4 (hist.take 2) 2 1 := by
  have r0 : FReach s0 [] 0 0 := FReach.init c2 plain
  have r1 : FReach s1 (hist.take 1) 0 0 :=
    FReach.set { seq := NIL, type := .insertion, key := 5, val := [1] } false r0 ⟨by decide, by decide⟩ (Or.inl rfl)
      (fun _ => rfl) rfl
  have r2 : FReach s2 (hist.take 1) 1 1 := FReach.syncOn r1 (db' := s1.db.sync.2) rfl
  have r3 : FReach s3 (hist.take 2) 1 1 :=
    FReach.set { seq := NIL, type := .insertion, key := 6, val := [2] } false r2 ⟨by decide, by decide⟩ (Or.inl rfl)
      (fun _ => rfl) rfl
  exact FReach.syncOff r3 (by decide) (by decide) (db' := s3.db.sync.2) rfl

theorem r6 : FReach s6 hist 3 3 := by
  have r5 : FReach s5 hist 2 1 :=
    FReach.set { seq := NIL, type := .insertion, key := 7, val := [3] } false r4 ⟨by decide, by decide⟩ (Or.inl rfl)
      (fun _ => rfl) rfl
  exact FReach.syncOn r5 (db' := s5.db.sync.2) rfl

/-- After `sync(false)` a power failure may take the second record, and only that one. -/
def d4 : Disk Nat (Flat Nat) := ⟨s4.db.log.persist, [⟨0, s4.dur 0, .clean⟩], s4.db.table⟩

example : PowerLoss s4 d4 ∧ (DB.reopen c2 d4).get 5 = (.ok, some [1]) ∧ (DB.reopen c2 d4).get 6 = (.keyNotFound, none) := by
  refine ⟨⟨by decide, rfl, ?_⟩, rfl, rfl⟩
  intro f hf
  have : s4.db.log.files.map (·.num) = [0] := rfl
  have hn : f.num = 0 := by
    have := List.mem_map_of_mem (f := fun f : LogFile Nat => f.num) hf
    rw [‹s4.db.log.files.map (·.num) = [0]›] at this
    simpa using this
  have hf' : f = s4.db.log.files.head (by decide) := List.mem_singleton.1 hf
  refine Or.inl ⟨s4.dur 0, .clean, by rw [hn]; rfl, by decide, by rw [hn]; exact List.prefix_rfl, ?_⟩
  rw [hf']; decide

/-- After the next `sync(true)` both log files are forced to disk. -/
example : s6.db.log.files.map (fun f => (f.num, s6.dur f.num == f.disk)) = [(0, true), (1, true)] := by decide

/-! #### a sync without fsync that writes two log files -/

def t1 := wrote s0 (s0.db.set 5 [1]).2
def t2 := wrote t1 (t1.db.set 6 [2]).2
def t3 := wrote t2 (t2.db.set 7 [3]).2
def t4 := t3.syncOff t3.db.sync.2.log
def t5 := t4.syncOn t4.db.sync.2.log
/-- The first log file has lost its second record. -/
def td : Disk Nat (Flat Nat) :=
  ⟨t5.db.log.persist, [⟨0, (FDB.written t5.db.log 0).take 1, .clean⟩, ⟨1, FDB.written t5.db.log 1, .clean⟩], t5.db.table⟩

theorem rt : FReach t3 hist 0 0 := by
  have r0 : FReach s0 [] 0 0 := FReach.init c2 plain
  have r1 : FReach t1 (hist.take 1) 0 0 :=
    FReach.set { seq := NIL, type := .insertion, key := 5, val := [1] } false r0 ⟨by decide, by decide⟩ (Or.inl rfl)
      (fun _ => rfl) rfl
  have r2 : FReach t2 (hist.take 2) 0 0 :=
    FReach.set { seq := NIL, type := .insertion, key := 6, val := [2] } false r1 ⟨by decide, by decide⟩ (Or.inl rfl)
      (fun _ => rfl) rfl
  exact FReach.set { seq := NIL, type := .insertion, key := 7, val := [3] } false r2 ⟨by decide, by decide⟩ (Or.inl rfl)
      (fun _ => rfl) rfl

theorem lost : PowerLoss t5 td := by
  refine ⟨by decide, rfl, ?_⟩
  have e : t5.db.log.files = [t5.db.log.files.head (by decide), t5.db.log.files.getLast (by decide)] := rfl
  intro f hf
  rw [e] at hf
  rcases List.mem_cons.1 hf with rfl | hf
  · exact Or.inl ⟨(FDB.written t5.db.log 0).take 1, .clean, rfl, by decide, by decide, by decide⟩
  · rw [List.mem_singleton.1 hf]
    exact Or.inl ⟨FDB.written t5.db.log 1, .clean, rfl, by decide, by decide, by decide⟩

end NoFsyncEx

/-- C53, violation: `sync(false)` writes two log files and counts both as synced; the `sync(true)` that follows
    returns OK, but calls fsync for the newest of them only (src/log_mgr.cc:1231-1262).  A power failure
    then takes a record of the older one that was accepted before `sync(true)` - and leaves a later one. -/
theorem C53_forgotten_fsync_violation :
    ∃ (s : FDB Nat (Flat Nat)) (h : List (Rec Nat)) (n m : Nat) (d1 d2 : DB Nat (Flat Nat)) (d : Disk Nat (Flat Nat)) (cfg : Cfg),
      FReach s h n m ∧ s.db.sync = (.ok, d1) ∧ (s.syncOff d1.log).db.sync = (.ok, d2) ∧
      PowerLoss ((s.syncOff d1.log).syncOn d2.log) d ∧ cfg.Plain ∧
      d2.get 6 = (.ok, some [2]) ∧ (DB.reopen cfg d).get 6 = (.keyNotFound, none) ∧
      (DB.reopen cfg d).get 7 = (.ok, some [3]) :=
  ⟨NoFsyncEx.t3, NoFsyncEx.hist, 0, 0, NoFsyncEx.t3.db.sync.2, NoFsyncEx.t4.db.sync.2, NoFsyncEx.td, NoFsyncEx.c2,
    NoFsyncEx.rt, rfl, rfl, NoFsyncEx.lost, NoFsyncEx.plain, rfl, rfl, rfl⟩

end Jungle
