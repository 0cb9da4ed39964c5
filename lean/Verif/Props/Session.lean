/-
  Several sessions with one database (C08, C48): it is closed or lost in a crash and opened again, and
  work goes on.  Every property of `Reach` (C01, C02, C04, C05, C06, C13, C17 to C22, …) holds in every
  session, because `Reach.session` starts from here.
-/
import Mathlib.Order.Nat
import Verif.DB.SessionLemmas
import Verif.Props.KV
import Verif.Props.Crash
import Verif.DB.Flat

set_option linter.unusedSectionVars false

namespace Jungle
open Spec
variable {K : Type} [LinearOrder K] {S : TableSys K}

/-- C08, partial: whatever a handle left on disk when it was closed or lost (at rest or while a sync
    was writing the newest log file), opening it again gives a database whose history `h'` is a prefix of
    the accepted writes and contains every write accepted before the last completed sync; every read
    answers from `h'`; and the session with history `h'` goes on, so that the same holds after the next
    restart.  Missing: a crash before the first sync, or after a torn last record (counterexamples:
    `C08_second_session_violation`, `C08_batch_after_torn_tail_violation`), log files added since the last
    sync, and going on after a crash during a flush. -/
theorem C08_sessions_partial {db : DB K S} {cs : List PMani} {h : List (Rec K)} {n : Nat} (hs : Session ⟨db, cs⟩ h n)
    {d : Disk K S} (hd : Left db cs d) (cfg : Cfg) (hc : cfg.Plain) :
    ∃ h', h.take n <+: h' ∧ h' <+: h ∧ Session ⟨DB.reopen cfg d, [d.mani]⟩ h' h'.length ∧
      ∀ k, (DB.reopen cfg d).getRecordByKey k = Spec.answerRec h' k := by
  obtain ⟨q, h1, h2, -⟩ := hs.left hd
  have hs' := Session.reopen cfg d q hs hc hd (h1 cfg hc)
  have hinc : Increasing h := (C04_numbers_increase (Reach.session hs.preach.1)).1
  have hsplit := split_le hinc q
  refine ⟨h.filter (fun r => decide (r.seq ≤ q)), ?_, ⟨_, hsplit.symm⟩, hs', fun k => ?_⟩
  · have hall : (h.take n).filter (fun r => decide (r.seq ≤ q)) = h.take n :=
      List.filter_eq_self.2 (fun r hr => by simpa using h2 r hr)
    refine ⟨(h.drop n).filter (fun r => decide (r.seq ≤ q)), ?_⟩
    conv => rhs; rw [← List.take_append_drop n h]
    rw [List.filter_append, hall]
  · exact C01_getRecordByKey (Reach.session hs'.preach.1) rfl k

/-- C48: closing a database (`LogMgr::close` syncs, src/log_mgr.cc:2076-2130) and opening it again,
    with whatever configuration, loses nothing and invents nothing: every key reads as the accepted
    writes say, as it did before. -/
theorem C48_close_and_reopen {db db' : DB K S} {cs : List PMani} {h : List (Rec K)} {n : Nat}
    (hr : PReach ⟨db, cs⟩ h n) (hsy : db.sync = (.ok, db')) (cfg : Cfg) (hc : cfg.logSectionOnly = false) (k : K) :
    (DB.reopen cfg db'.diskOf).getRecordByKey k = Spec.answerRec h k := by
  have hs := PReach.sync hr hsy
  have hd : Crash ⟨db', [db'.log.persist]⟩ db'.diskOf := by
    obtain ⟨A, B, -, hi⟩ := hs.inv
    refine Crash.idle _ (by simp [DB.diskOf]) rfl (fun f hf => Or.inl ?_)
    show List.find? _ (List.map _ _) = _
    rw [List.find?_map]
    have := hi.inv.log.file?_mem hf
    unfold LogMgr.file? at this
    have e : ((fun x : DFile K => x.num == f.num) ∘ LogFile.onDisk) = (fun g : LogFile K => g.num == f.num) := rfl
    rw [e, this]; rfl
  obtain ⟨h', h1, h2, h3⟩ := C08_synced_survive_partial hs hd cfg hc
  rw [List.take_length] at h1
  rw [h3 k, h2.eq_of_length_le h1.length_le]

/-- C48: the next session goes on from there: it has the same history and the same highest number, and
    everything that is proved of sessions holds of it (flushes of unsynced records excluded: after
    them a restart without a sync gives out numbers again, `C04_restart_reuse_violation`). -/
theorem C48_next_session {db db' : DB K S} {cs : List PMani} {h : List (Rec K)} {n : Nat}
    (hs : Session ⟨db, cs⟩ h n) (hne : h ≠ []) (hsy : db.sync = (.ok, db')) (cfg : Cfg) (hc : cfg.Plain) :
    Session ⟨DB.reopen cfg db'.diskOf, [db'.log.persist]⟩ h h.length ∧
      (DB.reopen cfg db'.diskOf).getMaxSeqNum = db.getMaxSeqNum := by
  obtain ⟨hl, hall⟩ := hs.closed hne hsy
  have hs1 := Session.sync hs hsy
  obtain ⟨q, h1, -, h3⟩ := hs1.left hl
  have hs' := Session.reopen cfg db'.diskOf q hs1 hc hl (h1 cfg hc)
  have hf : h.filter (fun r => decide (r.seq ≤ q)) = h := List.filter_eq_self.2 (fun r hr => by simpa using h3 hall r hr)
  rw [hf] at hs'
  refine ⟨hs', ?_⟩
  have e1 := (C04_numbers_increase (Reach.session hs'.preach.1)).2.2
  have e2 := (C04_numbers_increase (Reach.session hs.preach.1)).2.2
  exact e1.trans e2.symm

/-! ### a run: three sessions -/

namespace Sessions

def c2 : Cfg := { maxEntries := 2 }
def a0 : DB Nat (Flat Nat) := DB.init _ c2
def a1 := (a0.set 5 [1]).2
def a2 := (a1.set 6 [2]).2
def a3 := (a2.del 5).2
def a4 := a3.sync.2
/-- closed and opened again -/
def b0 := DB.reopen c2 a4.diskOf
def b1 := (b0.flushLogs {} NIL).2
def b2 := (b1.set 7 [3]).2
def b3 := b2.sync.2
def b4 := (b3.set 5 [4]).2
/-- a crash during a sync in the second session: the log file is written, the manifest is not -/
def lost : Disk Nat (Flat Nat) :=
  { mani := b3.log.persist, files := (b4.log.files.map b4.log.syncOne).map LogFile.onDisk, table := b4.table }
def e0 := DB.reopen c2 lost
def e1 := (e0.set 8 [5]).2
def e2 := e1.sync.2
/-- closed and opened again -/
def f0 := DB.reopen c2 e2.diskOf

def hist : List (Rec Nat) :=
  [{ seq := 1, type := .insertion, key := 5, val := [1] },
   { seq := 2, type := .insertion, key := 6, val := [2] },
   { seq := 3, type := .deletion, key := 5 },
   { seq := 4, type := .insertion, key := 7, val := [3] },
   { seq := 5, type := .insertion, key := 5, val := [4] },
   { seq := 6, type := .insertion, key := 8, val := [5] }]

theorem plain : c2.Plain := ⟨rfl, rfl, rfl, by decide⟩

theorem s3 : Session (⟨a3, [a0.log.persist, a2.log.rotated]⟩ : PDB Nat (Flat Nat)) (hist.take 3) 0 := by
  have r0 : Session (⟨a0, [a0.log.persist]⟩ : PDB Nat (Flat Nat)) [] 0 := Session.init c2 plain
  have r1 : Session (⟨a1, [a0.log.persist]⟩ : PDB Nat (Flat Nat)) (hist.take 1) 0 :=
    Session.set { seq := NIL, type := .insertion, key := 5, val := [1] } false r0 ⟨by decide, by decide⟩ (Or.inl rfl)
      (fun _ => rfl) rfl
  have r2 : Session (⟨a2, [a0.log.persist]⟩ : PDB Nat (Flat Nat)) (hist.take 2) 0 :=
    Session.set { seq := NIL, type := .insertion, key := 6, val := [2] } false r1 ⟨by decide, by decide⟩ (Or.inl rfl)
      (fun _ => rfl) rfl
  exact Session.set { seq := NIL, type := .deletion, key := 5 } true r2 ⟨by decide, by decide⟩ (Or.inl rfl)
      (fun h => absurd h (by decide)) rfl

/-- The second session begins with the three records. -/
theorem s4 : Session (⟨b0, [a4.log.persist]⟩ : PDB Nat (Flat Nat)) (hist.take 3) 3 :=
  (C48_next_session s3 (by decide) (db' := a4) rfl c2 plain).1

example : a4.log.files.length = 2 ∧ b0.log.files.length = 2 ∧ b0.get 5 = (.keyNotFound, none) ∧
    b0.get 6 = (.ok, some [2]) := by decide

theorem s5 : Session (⟨b4, [b3.log.persist]⟩ : PDB Nat (Flat Nat)) (hist.take 5) 4 := by
  have r1 : Session (⟨b1, [b1.log.persist]⟩ : PDB Nat (Flat Nat)) (hist.take 3) 3 :=
    Session.flush {} NIL s4 rfl rfl (Or.inl rfl) rfl
  have r2 : Session (⟨b2, [b1.log.persist, b1.log.rotated]⟩ : PDB Nat (Flat Nat)) (hist.take 4) 3 :=
    Session.set { seq := NIL, type := .insertion, key := 7, val := [3] } false r1 ⟨by decide, by decide⟩ (Or.inl rfl)
      (fun _ => rfl) rfl
  have r3 : Session (⟨b3, [b3.log.persist]⟩ : PDB Nat (Flat Nat)) (hist.take 4) 4 := Session.sync r2 rfl
  exact Session.set { seq := NIL, type := .insertion, key := 5, val := [4] } false r3 ⟨by decide, by decide⟩
      (Or.inl rfl) (fun _ => rfl) rfl

theorem lost_left : Left b4 [b3.log.persist] lost := by
  refine ⟨by simp [lost], rfl, by decide, by decide, ?_⟩
  intro f hf
  refine ⟨(b4.log.syncOne f).disk, ?_, ?_, List.prefix_rfl⟩
  all_goals revert f hf; decide

example : b1.log.files.length = 1 ∧ e0.get 5 = (.ok, some [4]) ∧ e0.get 6 = (.ok, some [2]) := by decide

/-- The hypotheses of `C08_sessions_partial` hold of a crash in a second session. -/
example := C08_sessions_partial s5 lost_left c2 plain

/-- The third session begins with five records. -/
theorem s6 : Session (⟨e0, [lost.mani]⟩ : PDB Nat (Flat Nat)) (hist.take 5) 5 :=
  Session.reopen c2 lost 5 s5 plain lost_left rfl

theorem s7 : Session (⟨e1, [lost.mani, e0.log.rotated]⟩ : PDB Nat (Flat Nat)) hist 5 :=
  Session.set { seq := NIL, type := .insertion, key := 8, val := [5] } false s6 ⟨by decide, by decide⟩ (Or.inl rfl)
      (fun _ => rfl) rfl

/-- The fourth session begins with all six. -/
example : Session (⟨f0, [e2.log.persist]⟩ : PDB Nat (Flat Nat)) hist 6 :=
  (C48_next_session s7 (by decide) (db' := e2) rfl c2 plain).1

example : f0.get 5 = (.ok, some [4]) ∧ f0.get 6 = (.ok, some [2]) ∧ f0.get 7 = (.ok, some [3]) ∧
    f0.get 8 = (.ok, some [5]) ∧ f0.getMaxSeqNum = some 6 := by decide

example (k : Nat) : f0.getRecordByKey k = Spec.answerRec hist k :=
  C48_close_and_reopen s7.preach.1 (db' := e2) rfl c2 rfl k

end Sessions

end Jungle
