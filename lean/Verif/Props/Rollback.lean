/-
  C16: what a rollback in log-section mode leaves.
-/
import Mathlib.Order.Nat
import Verif.DB.RollbackLemmas
import Verif.DB.Flat
import Verif.Props.Log

set_option linter.unusedSectionVars false

namespace Jungle
open Spec
variable {K : Type} [LinearOrder K] {S : TableSys K}

theorem DB.check_read_of_write {db : DB K S} (h : db.check .write = .ok) : db.check .read = .ok := by
  unfold DB.check at *
  cases hc : db.closing <;> cases hr : db.rollbackInProgress <;> simp_all

theorem DB.rollback_check {db db' : DB K S} {n} (hs : db.rollback n = (.ok, db')) : db.check .write = .ok := by
  by_contra hc
  unfold DB.rollback at hs
  rw [if_pos hc] at hs
  exact hc (congrArg Prod.fst hs)

theorem LDInv.reads {db : DB K S} {h : List (Rec K)} (hi : LDInv db h) (hc : db.check .read = .ok) :
    (∀ k, db.get k = answer h k) ∧ (∀ k, db.getRecordByKey k = answerRec h k) ∧
    (∀ s r, db.getRecord s = (.ok, some r) ↔ r ∈ h ∧ r.seq = s) ∧
    ∀ s, (∀ r ∈ h, r.seq ≠ s) → (db.getRecord s).1 ≠ .ok := by
  refine ⟨fun k => (hi.get_eq hc k).1, fun k => (hi.get_eq hc k).2, fun s r => ⟨fun hg => ?_, fun ⟨hm, he⟩ => ?_⟩,
    fun s hs hg => ?_⟩
  · unfold DB.getRecord at hg
    rw [if_neg (by simp [hc])] at hg
    split at hg
    · next r' he =>
      cases hg
      obtain ⟨-, h1, h2⟩ := hi.log.log.getSN_sound he
      exact ⟨by simpa using h1, h2⟩
    · cases congrArg Prod.snd hg
  · unfold DB.getRecord
    rw [if_neg (by simp [hc]), ← he, hi.log.log.getSN_pending hm]
  · unfold DB.getRecord at hg
    rw [if_neg (by simp [hc])] at hg
    split at hg
    · next r' he =>
      obtain ⟨-, h1, h2⟩ := hi.log.log.getSN_sound he
      exact hs r' h1 h2
    · next s' o hno he =>
      cases o with
      | some r =>
        obtain ⟨h0, h1, h2⟩ := hi.log.log.getSN_sound he
        exact hs r h1 h2
      | none =>
        have h1 := LogMgr.getSN_none db.log s (by rw [he])
        rw [he] at h1
        exact h1 hg

/-- In log-section mode, reads are determined by the records accepted and not rolled back: by key,
    and by number. -/
theorem C16_reads {db : DB K S} {h : List (Rec K)} (hr : LogReach db h) (hc : db.check .read = .ok) :
    (∀ k, db.get k = answer h k) ∧ (∀ k, db.getRecordByKey k = answerRec h k) ∧
    (∀ s r, db.getRecord s = (.ok, some r) ↔ r ∈ h ∧ r.seq = s) ∧
    ∀ s, (∀ r ∈ h, r.seq ≠ s) → (db.getRecord s).1 ≠ .ok :=
  hr.inv.reads hc

/-- C16: a rollback to `n` that succeeds leaves exactly the records numbered at most `n`, for reads
    by key and by number, and the highest number is that of the last of them. -/
theorem C16_rollback_keeps {db db' : DB K S} {h : List (Rec K)} (hr : LogReach db h) (hne : h ≠ []) {n : Nat}
    (hs : db.rollback n = (.ok, db')) :
    (∀ k, db'.get k = answer (upTo h n) k) ∧ (∀ k, db'.getRecordByKey k = answerRec (upTo h n) k) ∧
    (∀ s r, db'.getRecord s = (.ok, some r) ↔ r ∈ h ∧ r.seq ≤ n ∧ r.seq = s) ∧
    (∀ s, n < s → (db'.getRecord s).1 ≠ .ok) ∧
    upTo h n ≠ [] ∧ db'.getMaxSeqNum = ((upTo h n).getLast?).map (·.seq) := by
  have hck := DB.rollback_check hs
  rcases hr.inv.rollback hne n hck with ⟨d, h1, h2, h3, h4⟩ | ⟨d, h1, -⟩
  · rw [hs] at h1; cases h1
    have hc : db'.check .read = .ok := by
      rw [h4]; exact DB.check_read_of_write (db := { db with log := db'.log }) hck
    obtain ⟨a1, a2, a3, a4⟩ := C16_reads (LogReach.rollback n hr hne hs) hc
    refine ⟨a1, a2, fun s r => ?_, fun s hs => a4 s ?_, h3, h2.maxS h3⟩
    · rw [a3]
      simp only [upTo, List.mem_filter, decide_eq_true_eq, and_assoc]
    · intro r hm
      have : r.seq ≤ n := by simpa using (List.mem_filter.1 hm).2
      omega
  · rw [hs] at h1; cases congrArg Prod.fst h1

theorem upTo_last {h : List (Rec K)} (hi : Increasing h) {r : Rec K} (hr : r ∈ h) :
    (upTo h r.seq).getLast? = some r := by
  induction h with
  | nil => cases hr
  | cons a t ih =>
    obtain ⟨h1, h2⟩ := List.pairwise_cons.1 hi
    rcases List.mem_cons.1 hr with rfl | hr
    · have : upTo (r :: t) r.seq = [r] := by
        unfold upTo
        rw [List.filter_cons_of_pos (by simp)]
        congr 1
        rw [List.filter_eq_nil_iff]
        intro x hx
        have := h1 x hx
        simp; omega
      rw [this]; rfl
    · have h3 := ih h2 hr
      have : upTo (a :: t) r.seq = a :: upTo t r.seq := by
        unfold upTo
        rw [List.filter_cons_of_pos (by simp; have := h1 r hr; omega)]
      rw [this, List.getLast?_cons, h3]; rfl

/-- C16: a rollback to the number of a record succeeds, the highest number is then `n`, and the next
    write gets `n + 1`.  Missing: `n` that is the number of no record (`C16_gap_violation`), a database
    without records (`C16_empty_violation`) and `logFileTtl_sec = 0` (`C16_no_ttl_violation`). -/
theorem C16_rollback_partial {db : DB K S} {h : List (Rec K)} (hr : LogReach db h) (hck : db.check .write = .ok)
    {q : Rec K} (hq : q ∈ h) :
    ∃ db', db.rollback q.seq = (.ok, db') ∧ LogReach db' (upTo h q.seq) ∧ db'.getMaxSeqNum = some q.seq ∧
      ∀ (k : K) (v : Bytes) (se : Bool), db'.Fits 1 →
        ∃ db2, db'.set k v se = (.ok, db2) ∧
          db2.getRecord (q.seq + 1) = (.ok, some { seq := q.seq + 1, type := .insertion, key := k, val := v }) ∧
          LogReach db2 (upTo h q.seq ++ [{ seq := q.seq + 1, type := .insertion, key := k, val := v }]) := by
  have hne : h ≠ [] := List.ne_nil_of_mem hq
  have hi := hr.inv
  rcases hi.rollback hne q.seq hck with ⟨d, h1, h2, h3, h4⟩ | ⟨d, h1, h2, h3, h4, h5⟩
  · have hr' := LogReach.rollback q.seq hr hne h1
    have hinc : Increasing h := hi.log.log.inc
    have hm : d.getMaxSeqNum = some q.seq := by
      show d.log.getMaxSeqNum = _
      rw [h2.maxS h3, upTo_last hinc hq]; rfl
    have hck' : d.check .write = .ok := by
      rw [h4]; exact hck
    refine ⟨d, h1, hr', hm, fun k v se hfit => ?_⟩
    obtain ⟨d2, g1, g2⟩ := h2.set { seq := NIL, type := .insertion, key := k, val := v } se hfit (Or.inl rfl)
      (show NIL ≠ 0 by decide) (by rw [hm]; intro e; cases e) hck'
    have hr2 := LogReach.set { seq := NIL, type := .insertion, key := k, val := v } se hr' hfit (Or.inl rfl)
      (by rw [hm]; intro e; cases e) g1
    have hn : number (d.getMaxSeqNum.getD 0) [({ seq := NIL, type := .insertion, key := k, val := v } : Rec K)] =
        [{ seq := q.seq + 1, type := .insertion, key := k, val := v }] := by
      rw [hm]; rfl
    rw [hn] at hr2
    have hc2 : d2.check .read = .ok := by
      have : d2 = { d with log := d2.log } := by
        have e : ({ d with log := (d.log.setSN { seq := NIL, type := .insertion, key := k, val := v } se).2 } : DB K S) = d2 := by
          have := congrArg Prod.snd g1
          unfold DB.setRecord at this
          rw [if_neg (by simp [hck'])] at this
          exact this
        rw [← e]
      rw [this]; exact DB.check_read_of_write (db := { d with log := d2.log }) hck'
    refine ⟨d2, g1, ?_, hr2⟩
    exact ((C16_reads hr2 hc2).2.2.1 _ _).2 ⟨by simp, rfl⟩
  · exact absurd rfl (h5 q hq)

/-- C16: a rollback that fails on a non-empty database changes no read, and the next number stays. -/
theorem C16_refused {db db' : DB K S} {h : List (Rec K)} (hr : LogReach db h) (hne : h ≠ []) {n : Nat} {st}
    (hs : db.rollback n = (st, db')) (hst : st ≠ .ok) :
    LogReach db' h ∧ db'.getMaxSeqNum = db.getMaxSeqNum ∧ db'.check .read = db.check .read ∧
    (db.check .write = .ok → ∀ r ∈ h, r.seq ≠ n) := by
  refine ⟨LogReach.rollbackRefused n hr hne hs hst, ?_⟩
  by_cases hck : db.check .write = .ok
  · rcases hr.inv.rollback hne n hck with ⟨d, h1, -⟩ | ⟨d, h1, h2, h3, h4, h5⟩
    · rw [hs] at h1; exact absurd (congrArg Prod.fst h1) hst
    · rw [hs] at h1; cases h1
      refine ⟨h4, ?_, fun _ => h5⟩
      rw [h3]; rfl
  · unfold DB.rollback at hs
    rw [if_pos hck] at hs
    cases hs
    exact ⟨rfl, rfl, fun h => absurd h hck⟩

/-- C16: outside log-section mode a rollback is refused and nothing changes. -/
theorem C16_mode {db : DB K S} (n : Nat) (hck : db.check .write = .ok) (hm : db.log.cfg.logSectionOnly = false) :
    db.rollback n = (.invalidMode, db) := by
  unfold DB.rollback
  rw [hck, hm]; rfl

/-- C16: on a handle that is being closed, or during another rollback, it is refused. -/
theorem C16_unavailable {db : DB K S} (n : Nat) (hck : db.check .write ≠ .ok) :
    (db.rollback n).1 ≠ .ok ∧ (db.rollback n).2 = db := by
  unfold DB.rollback
  rw [if_pos hck]
  exact ⟨hck, rfl⟩

/-! ### Concrete cases -/
section

def rbCfg : Cfg := { logSectionOnly := true, maxEntries := 2 }

def rbRec (n k v : Nat) : Rec Nat := { seq := n, type := .insertion, key := k, val := [v.toUInt8] }

/-- One write with an explicit number or `NIL`. -/
def rbPut (s : DB Nat (Flat Nat) × List (Rec Nat)) (r : Rec Nat) : Option (DB Nat (Flat Nat) × List (Rec Nat)) :=
  if s.1.getMaxSeqNum.getD 0 + 1 < NIL ∧ s.1.log.maxNum + 1 < NIL ∧
      (r.seq = NIL ∨ (r.seq < NIL ∧ s.1.getMaxSeqNum.all (fun m => decide (m < r.seq)) = true)) ∧
      (s.1.setRecord r false).1 = .ok then
    some ((s.1.setRecord r false).2, s.2 ++ number (s.1.getMaxSeqNum.getD 0) [r])
  else none

theorem rbPut_reach {s s' : DB Nat (Flat Nat) × List (Rec Nat)} {r : Rec Nat} (h : LogReach s.1 s.2)
    (he : rbPut s r = some s') : LogReach s'.1 s'.2 := by
  unfold rbPut at he
  split at he
  · next hc =>
    obtain ⟨h1, h2, h4, h5⟩ := hc
    cases he
    refine LogReach.set r false h ⟨h1, h2⟩ ?_ (fun _ => rfl) (Prod.ext h5 rfl)
    rcases h4 with h4 | ⟨h4, h6⟩
    · exact Or.inl h4
    · refine Or.inr ⟨h4, fun m hm => ?_⟩
      rw [hm] at h6
      simpa using h6
  · cases he

def rbRun (s : DB Nat (Flat Nat) × List (Rec Nat)) : List (Rec Nat) → Option (DB Nat (Flat Nat) × List (Rec Nat))
  | [] => some s
  | r :: rs => match rbPut s r with
    | none => none
    | some s' => rbRun s' rs

theorem rbRun_reach {s s' : DB Nat (Flat Nat) × List (Rec Nat)} {rs} (h : LogReach s.1 s.2)
    (he : rbRun s rs = some s') : LogReach s'.1 s'.2 := by
  induction rs generalizing s with
  | nil => cases he; exact h
  | cons r rs ih =>
    unfold rbRun at he
    split at he
    · cases he
    · next s1 h1 => exact ih (rbPut_reach h h1) he

theorem rbInit : LogReach (DB.init (Flat Nat) rbCfg) [] := LogReach.init _ ⟨rfl, rfl, rfl, by decide⟩

/-- Five writes over three log files; key 1 is written three times. -/
def rbS := (rbRun (DB.init (Flat Nat) rbCfg, []) [rbRec NIL 1 10, rbRec NIL 2 20, rbRec NIL 1 11, rbRec NIL 3 30,
  rbRec NIL 1 12]).get (by decide +kernel)

theorem rbS_reach : LogReach rbS.1 rbS.2 := rbRun_reach rbInit (Option.some_get _).symm

-- The hypotheses of the theorems hold of `rbS`, and the rollback there removes two records.
example : LogReach rbS.1 rbS.2 ∧ rbS.1.check .write = .ok ∧ rbS.1.log.files.length = 3 ∧
    rbS.2.map (·.seq) = [1, 2, 3, 4, 5] ∧ (rbS.1.rollback 3).1 = .ok ∧ (rbS.1.rollback 3).2.log.files.length = 2 ∧
    rbS.1.get 1 = (.ok, some [12]) ∧ (rbS.1.rollback 3).2.get 1 = (.ok, some [11]) ∧
    (rbS.1.rollback 3).2.get 3 = (.keyNotFound, none) ∧ (rbS.1.rollback 3).2.getMaxSeqNum = some 3 :=
  ⟨rbS_reach, by decide +kernel, by decide +kernel, by decide +kernel, by decide +kernel, by decide +kernel,
    by decide +kernel, by decide +kernel, by decide +kernel, by decide +kernel⟩

-- A refused rollback.
example : (rbS.1.rollback 9).1 = .logFileNotFound ∧ (rbS.1.rollback 9).2.get 1 = (.ok, some [12]) :=
  ⟨by decide +kernel, by decide +kernel⟩

/-- C16 violation: the records have the numbers 1 and 5; `rollback(3)` succeeds and keeps record 1, but
    the next write gets the number 2, not 4. -/
theorem C16_gap_violation : ∃ (db db' db2 : DB Nat (Flat Nat)) (h : List (Rec Nat)), LogReach db h ∧
    h.map (·.seq) = [1, 5] ∧ db.rollback 3 = (.ok, db') ∧ db'.set 7 [7] = (.ok, db2) ∧
    db2.getMaxSeqNum = some 2 ∧ (db2.getRecord 4).1 ≠ .ok := by
  let s := (rbRun (DB.init (Flat Nat) rbCfg, []) [rbRec NIL 1 10, rbRec 5 2 20]).get (by decide +kernel)
  refine ⟨s.1, (s.1.rollback 3).2, ((s.1.rollback 3).2.set 7 [7]).2, s.2,
    rbRun_reach rbInit (Option.some_get _).symm, by decide +kernel, Prod.ext (by decide +kernel) rfl,
    Prod.ext (by decide +kernel) rfl, by decide +kernel, by decide +kernel⟩

/-- C16 violation: on a database without records `rollback(5)` fails, and yet the next write gets the
    number 6. -/
theorem C16_empty_violation : ∃ (db db' db2 : DB Nat (Flat Nat)), LogReach db [] ∧
    db.rollback 5 = (.seqnumNotFound, db') ∧ db'.set 7 [7] = (.ok, db2) ∧ db2.getMaxSeqNum = some 6 := by
  let db := DB.init (Flat Nat) rbCfg
  exact ⟨db, (db.rollback 5).2, ((db.rollback 5).2.set 7 [7]).2, rbInit, Prod.ext (by decide +kernel) rfl,
    Prod.ext (by decide +kernel) rfl, by decide +kernel⟩

/-- C16 violation: with `logFileTtl_sec = 0`, the default, a successful rollback to the number of a
    record leaves a file without memtable, and reading a kept key follows a null pointer. -/
theorem C16_no_ttl_violation : ∃ (db db' : DB Nat (Flat Nat)) (h : List (Rec Nat)) (gone : Nat), LogReach db h ∧
    h.map (·.seq) = [1, 2, 3, 4, 5] ∧ db.rollbackNoTtl 3 = (.ok, db', some gone) ∧
    answer (upTo h 3) 1 = (.ok, some [11]) ∧ db'.getWithout gone 1 = (.undefinedBehaviour, none) := by
  refine ⟨rbS.1, (rbS.1.rollbackNoTtl 3).2.1, rbS.2, ((rbS.1.rollbackNoTtl 3).2.2).get (by decide +kernel), rbS_reach,
    by decide +kernel, Prod.ext (by decide +kernel) (Prod.ext rfl (Option.some_get _).symm), by decide +kernel,
    by decide +kernel⟩

end
end Jungle
