/-
  C39: what `discardDirty` removes and what it leaves.
-/
import Mathlib.Order.Nat
import Verif.DB.DiscardLemmas
import Verif.DB.Flat
import Verif.Props.Crash
import Verif.Props.KV
import Verif.Props.Log

set_option linter.unusedSectionVars false

namespace Jungle
open Spec
variable {K : Type} [LinearOrder K] {S : TableSys K}

theorem DBCore.answer {db : DB K S} {A B} (h : DBCore db A B) (hc : db.closing = false) (k : K) :
    db.get k = Spec.answer (A ++ B) k := by
  rw [DB.get_of_record, h.answerRec hc]
  unfold Spec.answerRec Spec.answer
  cases lastWrite (A ++ B) k with
  | none => rfl
  | some r => simp only []; split <;> rfl

theorem DB.discard_open {db db' : DB K S} {n : Nat} (hs : db.discardDirty n = (.ok, db')) :
    db.closing = false ∧ db'.closing = false ∧ db.rollbackInProgress = false := by
  unfold DB.discardDirty at hs
  split at hs
  · next hc => exact absurd (congrArg Prod.fst hs) hc
  · next hc =>
    have hck : db.check .flush = .ok := by simpa using hc
    have hcl : db.closing = false := by
      unfold DB.check at hck; cases h : db.closing
      · rfl
      · simp [h] at hck
    have hrb : db.rollbackInProgress = false := by
      unfold DB.check at hck; cases h : db.rollbackInProgress
      · rfl
      · simp [h, hcl] at hck
    refine ⟨hcl, ?_, hrb⟩
    have := congrArg Prod.snd hs
    simp only at this
    rw [← this]; exact hcl

/-- C39: in every execution, discards among its calls, reads are determined by the accepted
    records that were not discarded; in particular a later write, flush or compaction never brings
    a discarded record back, and never loses one that was kept. -/
theorem C39_reads_partial {db : DB K S} {h : List (Rec K)} (hr : DReach db h) (hc : db.closing = false) :
    (∀ k, db.get k = answer h k) ∧ (∀ k, db.getRecordByKey k = answerRec h k) ∧
    (∀ n r, db.getRecord n = (.ok, some r) → r ∈ h ∧ r.seq = n) := by
  obtain ⟨A, B, rfl, hi⟩ := hr.inv
  refine ⟨hi.answer hc, hi.answerRec hc, fun n r hg => ?_⟩
  unfold DB.getRecord at hg
  rw [if_neg (by simp [DB.check, hc])] at hg
  split at hg
  · next r' he =>
    cases hg
    obtain ⟨-, h1, h2⟩ := hi.log.getSN_sound he
    exact ⟨by simp [h1], h2⟩
  · cases congrArg Prod.snd hg

/-- C39: a `discardDirty(n)` that succeeds.  Reads by key answer from the records numbered below
    `n` and those already flushed to tables, so the older version of a key is visible again; no
    read by number finds a record from `n` on that was not flushed; numbers are not handed out
    again. -/
theorem C39_discard_partial {db db' : DB K S} {h : List (Rec K)} (hr : DReach db h) {n : Nat}
    (hs : db.discardDirty n = (.ok, db')) :
    (∀ k, db'.get k = answer (kept db.getLastFlushedSeqNum n h) k) ∧
    (∀ k, db'.getRecordByKey k = answerRec (kept db.getLastFlushedSeqNum n h) k) ∧
    (∀ r ∈ h, n ≤ r.seq → (∀ m, db.getLastFlushedSeqNum = some m → m < r.seq) →
      (db'.getRecord r.seq).1 ≠ .ok ∧ (db'.getSN r.seq).1 ≠ .ok ∧
      ∀ k, (db'.getRecordByKey k).2 ≠ some r) ∧
    (∀ r ∈ h, r.seq < n → (∀ m, db.getLastFlushedSeqNum = some m → m < r.seq) →
      db'.getRecord r.seq = (.ok, some r)) ∧
    db'.getMaxSeqNum = db.getMaxSeqNum ∧ db'.getLastFlushedSeqNum = db.getLastFlushedSeqNum ∧
    db'.table = db.table := by
  have hop := DB.discard_open hs
  obtain ⟨A, B, rfl, hi⟩ := hr.inv
  rcases hi.discard hs with ⟨-, hi', hm, he, hk⟩ | ⟨e, -⟩
  swap
  · exact absurd rfl e
  rw [hk]
  have hdis : ∀ r ∈ A ++ B, n ≤ r.seq → (∀ m, db.getLastFlushedSeqNum = some m → m < r.seq) →
      ∀ x ∈ A ++ below n B, x.seq ≠ r.seq := by
    intro r hr' hn hf x hx e
    have hinc := hi.log.inc
    have hxB : x ∈ A ++ B := by
      rcases List.mem_append.1 hx with h1 | h1
      · simp [h1]
      · simp [(mem_below.1 h1).1]
    rcases List.mem_append.1 hx with h1 | h1
    · obtain ⟨f, fs, hff⟩ := List.exists_cons_of_ne_nil hi.log.ne
      have h2 := hi.log.mark f fs hff x h1
      have h3 := hi.log.lastFlushed_eq hff
      rw [if_neg h2.1] at h3
      have := hf _ h3
      omega
    · have := (mem_below.1 h1).2
      omega
  have hno : ∀ r ∈ A ++ B, n ≤ r.seq → (∀ m, db.getLastFlushedSeqNum = some m → m < r.seq) →
      (db'.log.getSN r.seq).1 ≠ .ok := by
    intro r hr' hn hf hg
    cases ho : db'.log.getSN r.seq with
    | mk s o =>
      cases o with
      | some y =>
        obtain ⟨-, h1, h2⟩ := hi'.log.getSN_sound ho
        exact hdis r hr' hn hf y (by simp [h1]) h2
      | none =>
        exact LogMgr.getSN_none db'.log r.seq (by rw [ho]) hg
  refine ⟨hi'.answer hop.2.1, hi'.answerRec hop.2.1, ?_, ?_, hm, ?_, by rw [he]⟩
  · intro r hr' hn hf
    have h1 := hno r hr' hn hf
    refine ⟨?_, ?_, ?_⟩
    · unfold DB.getRecord
      rw [if_neg (by simp [DB.check, hop.2.1])]
      split
      · next he => rw [he] at h1; exact absurd rfl h1
      · next s o _ he => rw [he] at h1; exact h1
    · unfold DB.getSN
      rw [if_neg (by simp [DB.check, hop.2.1])]
      split
      · next he => rw [he] at h1; exact absurd rfl h1
      · next s o _ he => rw [he] at h1; exact h1
    · intro k hg
      rw [hi'.answerRec hop.2.1] at hg
      unfold Spec.answerRec at hg
      cases hl : lastWrite (A ++ below n B) k with
      | none => rw [hl] at hg; cases hg
      | some x =>
        rw [hl] at hg
        simp only at hg
        split at hg
        · cases hg
          exact hdis r hr' hn hf r (lastWrite_mem hl).1 rfl
        · cases hg
  · intro r hr' hn hf
    have hB : r ∈ B := by
      rcases List.mem_append.1 hr' with hA | hB
      · exfalso
        obtain ⟨f, fs, hff⟩ := List.exists_cons_of_ne_nil hi.log.ne
        have h1 := hi.log.mark f fs hff r hA
        have h2 := hi.log.lastFlushed_eq hff
        rw [if_neg h1.1] at h2
        have := hf _ h2
        omega
      · exact hB
    unfold DB.getRecord
    rw [if_neg (by simp [DB.check, hop.2.1]), hi'.log.getSN_pending (mem_below.2 ⟨hB, hn⟩)]
  · obtain ⟨f, fs, hff⟩ := List.exists_cons_of_ne_nil hi.log.ne
    rw [he]
    show (db.log.cut n).getLastFlushedSeqNum = db.log.getLastFlushedSeqNum
    rw [hi.log.lastFlushed_eq hff, (hi.log.cut n).lastFlushed_eq (f := f.discardDirty n)
      (fs := fs.map (fun f => f.discardDirty n)) (by simp [LogMgr.cut, hff])]
    rfl

/-- C39: a `discardDirty` that fails changes nothing; and it does not fail if `n` is the number of
    a record that was not flushed. -/
theorem C39_refused_changes_nothing {db db' : DB K S} {h : List (Rec K)} (hr : DReach db h) {n : Nat} {st}
    (hs : db.discardDirty n = (st, db')) (hst : st ≠ .ok) : db' = db := by
  obtain ⟨A, B, rfl, hi⟩ := hr.inv
  rcases hi.discard hs with ⟨e, -⟩ | ⟨-, e⟩
  · exact absurd e hst
  · exact e

theorem C39_accepted {db : DB K S} {h : List (Rec K)} (hr : DReach db h) {r : Rec K} (hm : r ∈ h)
    (hnf : ∀ m, db.getLastFlushedSeqNum = some m → m < r.seq)
    (hc : db.closing = false) (hb : db.rollbackInProgress = false) :
    (db.discardDirty r.seq).1 = .ok := by
  obtain ⟨A, B, rfl, hi⟩ := hr.inv
  have hB : r ∈ B := by
    rcases List.mem_append.1 hm with hA | hB
    · exfalso
      obtain ⟨f, fs, hff⟩ := List.exists_cons_of_ne_nil hi.log.ne
      have h1 := hi.log.mark f fs hff r hA
      have h2 := hi.log.lastFlushed_eq hff
      rw [if_neg h1.1] at h2
      have := hnf _ h2
      omega
    · exact hB
  rw [hi.log.pend] at hB
  obtain ⟨f, hf, hrf⟩ := List.mem_flatMap.1 hB
  unfold DB.discardDirty
  rw [if_neg (by simp [DB.check, hc, hb])]
  simp only [LogMgr.discardDirty, hi.log.rw, Bool.false_eq_true, if_false]
  rw [if_neg (Nat.ne_of_lt hi.log.numN), hi.log.fileBySeq_rec hf (pending_sub hrf)]

namespace DiscardEx

/-- two versions of key 5, the first one synced -/
def d0 : DB Nat (Flat Nat) := DB.init _ { maxEntries := 2 }
def d1 := (d0.set 5 [1]).2
def d2 := d1.sync.2
def d3 := (d2.set 6 [2]).2
/-- this write rotates to a second log file -/
def d4 := (d3.set 5 [3]).2
def d5 := (d4.discardDirty 2).2

def h4 : List (Rec Nat) :=
  [{ seq := 1, type := .insertion, key := 5, val := [1] },
   { seq := 2, type := .insertion, key := 6, val := [2] },
   { seq := 3, type := .insertion, key := 5, val := [3] }]

theorem r0 : DReach d0 [] := DReach.init _ ⟨rfl, rfl, rfl, by decide⟩
theorem r1 : DReach d1 (h4.take 1) :=
  DReach.set (db' := d1) { seq := NIL, type := .insertion, key := 5, val := [1] } false r0
    (by unfold DB.Fits; decide) (Or.inl rfl) (fun _ => rfl) (by rfl)
theorem r2 : DReach d2 (h4.take 1) := DReach.sync r1 (st := .ok) rfl
theorem r3 : DReach d3 (h4.take 2) :=
  DReach.set (db' := d3) { seq := NIL, type := .insertion, key := 6, val := [2] } false r2
    (by unfold DB.Fits; decide) (Or.inl rfl) (fun _ => rfl) (by rfl)
theorem r4 : DReach d4 h4 :=
  DReach.set (db' := d4) { seq := NIL, type := .insertion, key := 5, val := [3] } false r3
    (by unfold DB.Fits; decide) (Or.inl rfl) (fun _ => rfl) (by rfl)
theorem s4 : d4.discardDirty 2 = (.ok, d5) := Prod.ext (by decide) rfl

example : d4.log.files.length = 2 ∧ d4.get 5 = (.ok, some [3]) ∧ d5.get 5 = (.ok, some [1]) ∧
    d5.get 6 = (.keyNotFound, none) := by decide
/-- C39 on this execution -/
example (k : Nat) : d5.get k = answer (kept none 2 h4) k := (C39_discard_partial r4 s4).1 k
example : (d5.getRecord 3).1 ≠ .ok :=
  ((C39_discard_partial r4 s4).2.2.1 { seq := 3, type := .insertion, key := 5, val := [3] } (by decide) (by decide)
    (by intro m hm; have : d4.getLastFlushedSeqNum = none := by decide
        rw [this] at hm; cases hm)).1
theorem r5 : DReach d5 (if Status.ok = .ok then kept d4.getLastFlushedSeqNum 2 h4 else h4) := DReach.discard 2 r4 s4
/-- the next write gets number 4, not 2 -/
example : (d5.set 9 [7]).2.getMaxSeqNum = some 4 ∧ (d5.set 9 [7]).2.get 9 = (.ok, some [7]) := by decide
example (k : Nat) : d5.sync.2.get k = answer (kept d4.getLastFlushedSeqNum 2 h4) k :=
  (C39_reads_partial (DReach.sync r5 (st := .ok) (Prod.ext (by decide) rfl)) rfl).1 k
example : (d4.discardDirty 9).1 = .logFileNotFound ∧ (d4.discardDirty 9).2 = d4 :=
  ⟨by decide, C39_refused_changes_nothing r4 (st := .logFileNotFound) (Prod.ext (by decide) rfl) (by decide)⟩
example : (d4.discardDirty 3).1 = .ok :=
  C39_accepted r4 (r := { seq := 3, type := .insertion, key := 5, val := [3] }) (by decide)
    (by intro m hm; have : d4.getLastFlushedSeqNum = none := by decide
        rw [this] at hm; cases hm) rfl rfl

end DiscardEx

/-- C39 fails for synced records: the last synced number is computed but not used, so a
    `discardDirty(n)` with `n` at or below it removes synced records from the memtable. -/
theorem C39_synced_violation :
    ∃ (db db' : DB Nat (Flat Nat)) (h : List (Rec Nat)) (r : Rec Nat), DReach db h ∧ r ∈ h ∧
      db.getLastSyncedSeqNum = some r.seq ∧ db.get r.key = (.ok, some r.val) ∧
      db.discardDirty r.seq = (.ok, db') ∧ db'.get r.key = (.keyNotFound, none) :=
  ⟨DiscardEx.d2, (DiscardEx.d2.discardDirty 1).2, _, { seq := 1, type := .insertion, key := 5, val := [1] },
    DiscardEx.r2, by decide, by decide, by decide, Prod.ext (by decide) rfl, by decide⟩

/-- The synced record that `discardDirty` made invisible is back after the database was closed and
    opened again (the files are as the handle left them). -/
theorem C39_comes_back_violation :
    ∃ (db db' : DB Nat (Flat Nat)) (h : List (Rec Nat)) (cfg : Cfg), DReach db h ∧ cfg.Plain ∧
      db.discardDirty 1 = (.ok, db') ∧ db'.get 5 = (.keyNotFound, none) ∧
      (DB.reopen cfg db'.diskOf).get 5 = (.ok, some [1]) :=
  ⟨DiscardEx.d2, (DiscardEx.d2.discardDirty 1).2, _, { maxEntries := 2 }, DiscardEx.r2, ⟨rfl, rfl, rfl, by decide⟩,
    Prod.ext (by decide) rfl, by decide, by decide⟩

/-- C39 fails after a flush with an explicit number above the last synced one: it writes the
    unsynced record to the tables but leaves it above the flush mark, so `discardDirty` takes it
    out of the log section only, and reads still return it. -/
theorem C39_flushed_unsynced_violation :
    ∃ (db db1 db2 : DB Nat (Flat Nat)) (h : List (Rec Nat)) (r : Rec Nat), DReach db h ∧ r ∈ h ∧
      db.getLastSyncedSeqNum = some 1 ∧ 1 < r.seq ∧
      db.flushLogs {} 7 = (.ok, db1) ∧ db1.getLastFlushedSeqNum = some 1 ∧ db1.getLastSyncedSeqNum = some 1 ∧
      db1.discardDirty r.seq = (.ok, db2) ∧ db2.get r.key = (.ok, some r.val) :=
  ⟨DiscardEx.d3, (DiscardEx.d3.flushLogs {} 7).2, ((DiscardEx.d3.flushLogs {} 7).2.discardDirty 2).2, _,
    { seq := 2, type := .insertion, key := 6, val := [2] },
    DiscardEx.r3, by decide, by decide, by decide, Prod.ext (by decide) rfl, by decide, by decide,
    Prod.ext (by decide) rfl, by decide⟩

/-- Discarding all records of a key leaves its node in the memtable with an empty list; a search by
    key (iterator, nearest key) that meets the node dereferences the end of that list. -/
theorem C39_empty_node_violation :
    ∃ (db db' : DB Nat (Flat Nat)) (h : List (Rec Nat)), DReach db h ∧ db.discardDirty 2 = (.ok, db') ∧
      ∃ f ∈ db'.log.files, ∃ e ∈ f.mem.byKey, ∀ a b, validKeyExist e.2 a b = none :=
  ⟨DiscardEx.d4, DiscardEx.d5, _, DiscardEx.r4, DiscardEx.s4,
    (DiscardEx.d5.log.files.head (by decide)), by decide, (6, []), by decide, fun _ _ => rfl⟩

end Jungle
