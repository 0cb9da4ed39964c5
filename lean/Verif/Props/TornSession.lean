/-
  C07, C08: work that goes on after a crash inside a flush.  The interrupted flush is run again by the
  next session, which may crash inside it again, and so on; in between there may be writes, syncs,
  compactions.
-/
import Mathlib.Order.Nat
import Verif.DB.TornLemmas
import Verif.Props.Session
import Verif.Table.Lsm

set_option linter.unusedSectionVars false

namespace Jungle
open Spec

section
variable {K : Type} [LinearOrder K] {S : TableSys K}

/-- Every read in such a session answers from the accepted writes that are left. -/
theorem C08_torn_reads_partial {p : PDB K S} {h : List (Rec K)} {n : Nat} (hs : TSession p h n)
    (hc : p.db.closing = false) (k : K) : p.db.getRecordByKey k = Spec.answerRec h k := by
  obtain ⟨A, B, rfl, hi⟩ := hs.dbinv
  rw [hi.get_eq (by unfold DB.check; simp [hc])]
  exact answerRec_eq _ _

/-- Their numbers increase, and the highest one is what `getMaxSeqNum` says. -/
theorem C04_torn_numbers {p : PDB K S} {h : List (Rec K)} {n : Nat} (hs : TSession p h n) :
    Increasing h ∧ p.db.getMaxSeqNum = (h.getLast?).map (·.seq) := by
  obtain ⟨A, B, rfl, hi⟩ := hs.dbinv
  refine ⟨hi.log.inc, ?_⟩
  by_cases he : A ++ B = []
  · rw [he]; exact hi.max0 he
  · exact hi.maxS he

/-- C08, partial: whatever a handle left on disk when it was closed or lost - at rest, while a sync was
    writing the newest log file, or inside a flush of synced records - opening it again gives a database
    whose history `h'` is a prefix of the accepted writes and contains every write accepted before the last
    completed sync; every read answers from `h'`; and the session with history `h'` goes on, so that the
    same holds after the next restart, however often.  Missing: a crash before the first sync, or after a
    torn last record (counterexamples: `C08_second_session_violation`,
    `C08_batch_after_torn_tail_violation`), log files added since the last sync, and going on after a crash
    in which a flush had already removed log files. -/
theorem C08_torn_sessions_partial {db : DB K S} {cs : List PMani} {h : List (Rec K)} {n : Nat}
    (hs : TSession ⟨db, cs⟩ h n) {d : Disk K S} (hd : Left db cs d ∨ ∃ o m, LeftInFlush db cs o m d)
    (cfg : Cfg) (hc : cfg.Plain) :
    ∃ h', h.take n <+: h' ∧ h' <+: h ∧ TSession ⟨DB.reopen cfg d, [d.mani]⟩ h' h'.length ∧
      ∀ k, (DB.reopen cfg d).getRecordByKey k = Spec.answerRec h' k := by
  obtain ⟨t0, hsim⟩ := hs.sim
  have hl : Left db cs { d with table := db.table } := by
    rcases hd with hd | ⟨o, m, hd⟩
    · exact ⟨hd.mani, rfl, hd.synced, hd.once, hd.files⟩
    · exact hd.left
  obtain ⟨q, h1, h2, -⟩ := hsim.ghost.left (hl.retable t0)
  have hm : (DB.reopen cfg d).getMaxSeqNum = some q := h1 cfg hc
  have hs' : TSession ⟨DB.reopen cfg d, [d.mani]⟩ (h.filter (fun r => decide (r.seq ≤ q)))
      (h.filter (fun r => decide (r.seq ≤ q))).length := by
    rcases hd with hd | ⟨o, m, hd⟩
    · exact TSession.reopen cfg d q hs hc hd hm
    · exact TSession.reopenFlush cfg o m d q hs hc hd hm
  have hsplit := split_le (C04_torn_numbers hs).1 q
  refine ⟨_, ?_, ⟨_, hsplit.symm⟩, hs', fun k => C08_torn_reads_partial hs' rfl k⟩
  have hall : (h.take n).filter (fun r => decide (r.seq ≤ q)) = h.take n :=
    List.filter_eq_self.2 (fun r hr => by simpa using h2 r hr)
  refine ⟨(h.drop n).filter (fun r => decide (r.seq ≤ q)), ?_⟩
  conv => rhs; rw [← List.take_append_drop n h]
  rw [List.filter_append, hall]

/-- C07, partial: a flush of synced records that was cut short by a crash is run again after the restart.
    The crash lost nothing that was synced and invented nothing; running the flush again changes no read,
    and neither does a second crash inside it.  Missing: running it again after a crash in which log files
    had been removed already, and a flush of unsynced records (`C08_beyond_flush_violation`). -/
theorem C07_rerun_partial {db : DB K S} {cs : List PMani} {h : List (Rec K)} {n : Nat}
    (hs : TSession ⟨db, cs⟩ h n) {o : LogMgr.FlushOpts} {m : Nat} {d : Disk K S} (hd : LeftInFlush db cs o m d)
    (cfg : Cfg) (hc : cfg.Plain) :
    ∃ h', h.take n <+: h' ∧ h' <+: h ∧
      (∀ k, (DB.reopen cfg d).getRecordByKey k = Spec.answerRec h' k) ∧
      (∀ o' m' db', o'.purgeOnly = false → o'.beyondLastSync = false → (DB.reopen cfg d).SafeFlush o' m' →
        (DB.reopen cfg d).flushLogs o' m' = (.ok, db') → ∀ k, db'.getRecordByKey k = Spec.answerRec h' k) ∧
      (∀ o' m' d', LeftInFlush (DB.reopen cfg d) [d.mani] o' m' d' → ∀ cfg' : Cfg, cfg'.Plain → ∀ k,
        (DB.reopen cfg' d').getRecordByKey k = Spec.answerRec h' k) := by
  obtain ⟨h', h1, h2, hs', h4⟩ := C08_torn_sessions_partial hs (Or.inr ⟨o, m, hd⟩) cfg hc
  refine ⟨h', h1, h2, h4, ?_, ?_⟩
  · intro o' m' db' hp hb hsafe hf k
    have hf' := TSession.flush o' m' hs' hp hb hsafe hf
    refine C08_torn_reads_partial hf' ?_ k
    have hcl : (DB.reopen cfg d).closing = false := rfl
    unfold DB.flushLogs at hf
    split at hf
    · rw [← congrArg (fun x => x.2.closing) hf]; exact hcl
    · rw [← congrArg (fun x => x.2.closing) hf]; exact hcl
  · intro o' m' d' hd' cfg' hc' k
    obtain ⟨h'', g1, g2, -, g4⟩ := C08_torn_sessions_partial hs' (Or.inr ⟨o', m', hd'⟩) cfg' hc'
    rw [List.take_length] at g1
    rw [g4 k, g2.eq_of_length_le g1.length_le]

end

/-! ### a run: two crashes inside the same flush, with writes in between -/

namespace TornEx

def c : TCfg Nat := { hash := fun k => k }
abbrev D := DB Nat (Lsm c 2 (by decide))
def c4 : Cfg := { maxEntries := 4 }
theorem plain : c4.Plain := ⟨rfl, rfl, rfl, by decide⟩

def a0 : D := DB.init _ c4
def a1 := (a0.set 4 [1]).2
def a2 := (a1.set 5 [2]).2
def a3 := a2.sync.2
/-- a crash in the first flush: only the table of the odd keys is written -/
def l1 : Disk Nat (Lsm c 2 (by decide)) :=
  { mani := a3.log.persist, files := a3.log.files.map LogFile.onDisk,
    table := (TMgr.setBatchPart c (a3.table : TMgr Nat)
      (LogMgr.gather 2 false a3.log.files) 1 : TMgr Nat) }
def b0 := DB.reopen c4 l1
/-- the key that was written is deleted -/
def b1 := (b0.del 5).2
def b2 := b1.sync.2
/-- a crash in the second flush: only the table of the even keys is written -/
def l2 : Disk Nat (Lsm c 2 (by decide)) :=
  { mani := b2.log.persist, files := b2.log.files.map LogFile.onDisk,
    table := (TMgr.setBatchPart c (b2.table : TMgr Nat)
      (LogMgr.gather 3 false b2.log.files) 0 : TMgr Nat) }
def e0 := DB.reopen c4 l2
/-- the third flush completes -/
def e1 := (e0.flushLogs {} NIL).2

def hist : List (Rec Nat) :=
  [{ seq := 1, type := .insertion, key := 4, val := [1] },
   { seq := 2, type := .insertion, key := 5, val := [2] },
   { seq := 3, type := .deletion, key := 5 }]

theorem s2 : TSession (⟨a3, [a3.log.persist]⟩ : PDB Nat (Lsm c 2 (by decide))) (hist.take 2) 2 := by
  have r0 : TSession (⟨a0, [a0.log.persist]⟩ : PDB Nat (Lsm c 2 (by decide))) [] 0 := TSession.init c4 plain
  have r1 : TSession (⟨a1, [a0.log.persist]⟩ : PDB Nat (Lsm c 2 (by decide))) (hist.take 1) 0 :=
    TSession.set { seq := NIL, type := .insertion, key := 4, val := [1] } false r0 ⟨by decide, by decide⟩ (Or.inl rfl)
      (fun _ => rfl) rfl
  have r2 : TSession (⟨a2, [a0.log.persist]⟩ : PDB Nat (Lsm c 2 (by decide))) (hist.take 2) 0 :=
    TSession.set { seq := NIL, type := .insertion, key := 5, val := [2] } false r1 ⟨by decide, by decide⟩ (Or.inl rfl)
      (fun _ => rfl) rfl
  exact TSession.sync r2 rfl

theorem left1 : LeftInFlush a3 [a3.log.persist] {} NIL l1 := by
  refine ⟨⟨by simp [l1], rfl, by decide, by decide, ?_⟩, rfl, rfl, Or.inl rfl, by decide, 0, 0, 2, rfl, Or.inl ?_⟩
  · intro f hf
    refine ⟨f.disk, ?_, List.prefix_rfl, ?_⟩
    all_goals revert f hf; decide
  · exact ⟨[1], by decide, by decide, rfl⟩

theorem s3 : TSession (⟨b0, [l1.mani]⟩ : PDB Nat (Lsm c 2 (by decide))) (hist.take 2) 2 :=
  TSession.reopenFlush c4 {} NIL l1 2 s2 plain left1 rfl

theorem s4 : TSession (⟨b2, [b2.log.persist]⟩ : PDB Nat (Lsm c 2 (by decide))) hist 3 := by
  have r1 : TSession (⟨b1, [l1.mani, b0.log.rotated]⟩ : PDB Nat (Lsm c 2 (by decide))) hist 2 :=
    TSession.set { seq := NIL, type := .deletion, key := 5 } false s3 ⟨by decide, by decide⟩ (Or.inl rfl)
      (fun _ => rfl) rfl
  exact TSession.sync r1 rfl

theorem left2 : LeftInFlush b2 [b2.log.persist] {} NIL l2 := by
  refine ⟨⟨by simp [l2], rfl, by decide, by decide, ?_⟩, rfl, rfl, Or.inl rfl, by decide, 0, 1, 3, rfl, Or.inl ?_⟩
  · intro f hf
    refine ⟨f.disk, ?_, List.prefix_rfl, ?_⟩
    all_goals revert f hf; decide
  · exact ⟨[0], by decide, by decide, rfl⟩

theorem s5 : TSession (⟨e0, [l2.mani]⟩ : PDB Nat (Lsm c 2 (by decide))) hist 3 :=
  TSession.reopenFlush c4 {} NIL l2 3 s4 plain left2 rfl

theorem s6 : TSession (⟨e1, [e1.log.persist]⟩ : PDB Nat (Lsm c 2 (by decide))) hist 3 :=
  TSession.flush {} NIL s5 rfl rfl (Or.inl rfl) rfl

/-- The tables hold a value of key 5 that the log deletes, then the flush deletes it. -/
example : TMgr.get c (e0.table : TMgr Nat) 5 ≠ none ∧ e0.log.files.length = 2 ∧ e1.log.files.length = 1 ∧
    (TMgr.get c (e1.table : TMgr Nat) 5).map (·.isDel) = some true := by decide +kernel

example (k : Nat) : e1.getRecordByKey k = Spec.answerRec hist k := C08_torn_reads_partial s6 rfl k

example := C07_rerun_partial s4 left2 c4 plain
example := C08_torn_sessions_partial s4 (Or.inr ⟨_, _, left2⟩) c4 plain

example : e1.get 4 = (.ok, some [1]) ∧ e1.get 5 = (.keyNotFound, none) := by decide +kernel

end TornEx

end Jungle
