/-
  C58: if records cannot be written to the table files, the call that wanted to write them returns an
  error and the records stay readable.

  `flushLogsF fail` is `flushLogs` in a run in which the writes to the tables of some partitions stop;
  `compactL0EndF bad lost` is a compaction in which new files cannot be created or records cannot be
  copied.  Which writes fail is arbitrary.
-/
import Verif.Fail.Lemmas
import Verif.Props.KV
import Verif.DB.Script
import Verif.Iter.WithinDB

set_option linter.unusedSectionVars false
namespace Jungle
open Spec TMgr
section
variable {K : Type} [LinearOrder K] [OrderBot K] {c : TCfg K} {parts : Nat} {hp : 0 < parts}

/-- The log part of a flush does not depend on the tables. -/
theorem flushF_log {T T' : Type} (l : LogMgr K) (o : LogMgr.FlushOpts) (n : Nat) (t : T) (t' : T')
    (f : T → List (Rec K) → List Nat → T) (f' : T' → List (Rec K) → List Nat → T') :
    (l.flush o n t f).1 = (l.flush o n t' f').1 ∧ (l.flush o n t f).2.1 = (l.flush o n t' f').2.1 := by
  unfold LogMgr.flush
  split
  · exact ⟨rfl, rfl⟩
  · split <;> exact ⟨rfl, rfl⟩

theorem flushF_table (l : LogMgr K) (o : LogMgr.FlushOpts) (n : Nat) {T : Type} (t : T)
    (f f' : T → List (Rec K) → List Nat → T) :
    ((l.flush o n t f).2.2 = t ∧ (l.flush o n t f').2.2 = t) ∨
    ∃ R cps, (l.flush o n t f).2.2 = f t R cps ∧ (l.flush o n t f').2.2 = f' t R cps := by
  unfold LogMgr.flush
  split
  · exact Or.inl ⟨rfl, rfl⟩
  · split
    · exact Or.inl ⟨rfl, rfl⟩
    · simp only
      split
      · exact Or.inr ⟨_, _, rfl, rfl⟩
      · exact Or.inl ⟨rfl, rfl⟩

theorem get_congr_top {S : TableSys K} {db db' : DB K S} (h1 : db'.log = db.log) (h2 : db'.closing = db.closing)
    {k : K} (h3 : Top (S.get db'.table k) (S.get db.table k)) : db'.get k = db.get k := by
  unfold DB.get
  have hck : db'.check .read = db.check .read := by unfold DB.check; rw [h2]; simp
  rw [hck, h1]
  split
  · rfl
  · split
    · rfl
    · unfold DB.tableGet
      rw [h1]
      by_cases hlo : db.log.cfg.logSectionOnly = true
      · rw [if_pos hlo, if_pos hlo]
      · rw [if_neg hlo, if_neg hlo]
        rcases h3 with h3 | ⟨h3, r, h4, h5⟩
        · rw [h3]
        · rw [h3, h4]
          have : r.isIns = false := by
            unfold Rec.isDel at h5; unfold Rec.isIns
            cases ht : r.type <;> simp_all
          simp [this]

/-- **C58, negation.**  Whatever fails, `flushLogs` returns what it returns when nothing fails, and does
    the same to the log: the records are marked as flushed and the files are removed. -/
theorem C58_flush_silent_violation (db : DB K (Lsm c parts hp)) (fail : Nat → Option Nat)
    (o : LogMgr.FlushOpts) (n : Nat) :
    (db.flushLogsF fail o n).1 = (db.flushLogs o n).1 ∧
    (db.flushLogsF fail o n).2.log = (db.flushLogs o n).2.log ∧
    (db.flushLogsF fail o n).2.getLastFlushedSeqNum = (db.flushLogs o n).2.getLastFlushedSeqNum := by
  have : (db.flushLogsF fail o n).1 = (db.flushLogs o n).1 ∧
      (db.flushLogsF fail o n).2.log = (db.flushLogs o n).2.log := by
    unfold DB.flushLogsF DB.flushLogs
    split
    · exact ⟨rfl, rfl⟩
    · exact flushF_log _ _ _ _ _ _ _
  exact ⟨this.1, this.2, by unfold DB.getLastFlushedSeqNum; rw [this.2]⟩

theorem flushLogsF_closing (db : DB K (Lsm c parts hp)) (fail : Nat → Option Nat)
    (o : LogMgr.FlushOpts) (n : Nat) : (db.flushLogsF fail o n).2.closing = db.closing := by
  unfold DB.flushLogsF; split <;> rfl

theorem flushLogs_closing' (db : DB K (Lsm c parts hp)) (o : LogMgr.FlushOpts) (n : Nat) :
    (db.flushLogs o n).2.closing = db.closing := by
  unfold DB.flushLogs; split <;> rfl

theorem flushLogsF_table (db : DB K (Lsm c parts hp)) (fail : Nat → Option Nat)
    (o : LogMgr.FlushOpts) (n : Nat) :
    ((db.flushLogsF fail o n).2.table = db.table ∧ (db.flushLogs o n).2.table = db.table) ∨
    ∃ R, (db.flushLogsF fail o n).2.table = TMgr.setBatchF c fail db.table R ∧
      (db.flushLogs o n).2.table = TMgr.setBatch c db.table R := by
  unfold DB.flushLogsF DB.flushLogs
  split
  · exact Or.inl ⟨rfl, rfl⟩
  · rcases flushF_table db.log (if db.log.cfg.logSectionOnly then { o with purgeOnly := true } else o) n db.table
      (fun t R _ => TMgr.setBatchF c fail t R) (Lsm c parts hp).setBatch with h | ⟨R, _, h1, h2⟩
    · exact Or.inl h
    · exact Or.inr ⟨R, h1, h2⟩

/-- **C58 (part), other partitions.**  A flush in which the writes to some level-0 tables fail does not
    touch the keys of the other partitions: they read their last accepted write.  Missing: the keys of
    the partitions that failed; for them it is false (`C58_flush_lost_violation`). -/
theorem C58_other_partitions_partial {db : DB K (Lsm c parts hp)} {h : List (Rec K)} (hr : Reach db h)
    (hc : db.closing = false) (fail : Nat → Option Nat) {o : LogMgr.FlushOpts} {n : Nat}
    (hpo : o.purgeOnly = false) (hn : db.FlushSeq o n) {k : K}
    (hk : fail (c.hash k % (db.table : TMgr K).parts) = none) :
    (db.flushLogsF fail o n).2.get k = Spec.answer h k := by
  have hr' := Reach.flush o n hr hpo hn (show db.flushLogs o n = ((db.flushLogs o n).1, (db.flushLogs o n).2) from rfl)
  rw [← C01_get_returns_latest_write hr' ((flushLogs_closing' db o n).trans hc) k]
  obtain ⟨A, B, -, hi⟩ := hr.inv
  refine get_congr_top (C58_flush_silent_violation db fail o n).2.1
    ((flushLogsF_closing db fail o n).trans (flushLogs_closing' db o n).symm) (Or.inl ?_)
  rcases flushLogsF_table db fail o n with ⟨h1, h2⟩ | ⟨R, h1, h2⟩
  · rw [h1, h2]
  · rw [h1, h2]
    show TMgr.get c (TMgr.setBatchF c fail db.table R) k = TMgr.get c (TMgr.setBatch c db.table R) k
    rw [(setBatchF_ok hi.table fail R).2.2 k, (setBatch_ok hi.table R).2.2 k]
    unfold TMgr.part
    rw [hk]

/-- **C58 (part), no wrong data.**  Whatever fails, a read after the flush returns nothing or a value that
    was once written for that key. -/
theorem C58_nothing_invented_partial {db : DB K (Lsm c parts hp)} {h : List (Rec K)} (hr : Reach db h)
    (hc : db.closing = false) (fail : Nat → Option Nat) {o : LogMgr.FlushOpts} {n : Nat}
    (hpo : o.purgeOnly = false) (hn : db.FlushSeq o n) (k : K) :
    (db.flushLogsF fail o n).2.get k = (.keyNotFound, none) ∨
    ∃ r ∈ h, r.key = k ∧ (db.flushLogsF fail o n).2.get k = (.ok, some r.val) := by
  obtain ⟨A, B, rfl, hi, hnw⟩ := hr.inv_with (TMgr.newest_pred c parts hp)
  have hr' := Reach.flush o n hr hpo hn (show db.flushLogs o n = ((db.flushLogs o n).1, (db.flushLogs o n).2) from rfl)
  have hcl := (flushLogs_closing' db o n).trans hc
  have hans := C01_get_returns_latest_write hr' hcl k
  obtain ⟨-, hlog, -⟩ := C58_flush_silent_violation db fail o n
  have hclF := (flushLogsF_closing db fail o n).trans hc
  have htab : ∀ r, (Lsm c parts hp).get (db.flushLogsF fail o n).2.table k = some r → r ∈ A ++ B ∧ r.key = k := by
    have hold : ∀ r, TMgr.get c db.table k = some r → r ∈ A ++ B ∧ r.key = k := by
      intro r he
      rw [get_eq_head hi.table] at he
      have := hnw.mem k r (List.mem_of_head? he)
      exact ⟨this.1, this.2.1⟩
    intro r he
    -- the records that are written come from the log
    have hsrc : (db.flushLogsF fail o n).2.table = db.table ∨ ∃ R', (∀ r ∈ R', r ∈ A ++ B) ∧
        (db.flushLogsF fail o n).2.table = TMgr.setBatchF c fail db.table R' := by
      by_cases hck : db.check .flush ≠ .ok
      · left; unfold DB.flushLogsF; rw [if_pos hck]
      · have hm : db.log.cfg.logSectionOnly = false := hi.mode
        have hlF : (db.flushLogsF fail o n).2.table
            = (db.log.flush o n db.table (fun t R _ => TMgr.setBatchF c fail t R)).2.2 := by
          unfold DB.flushLogsF; rw [if_neg hck, if_neg (by simp [hm])]
        rcases hi.log.flush o n (hi.flushOk hn) hpo db.table (fun t R _ => TMgr.setBatchF c fail t R) with
          ⟨e, he, -⟩ | ⟨l', t', he, ho⟩
        · left; rw [hlF, he]
        · obtain ⟨D, B', R, cps, -, -, -, e4, e5, -⟩ := ho.ex
          rw [hlF, he]
          by_cases hRn : R = []
          · left; subst e5; show (if R = [] then _ else _) = _; exact if_pos hRn
          · right; exact ⟨R, fun r hr => List.mem_append_right _ (e4 r hr), by subst e5; show (if R = [] then _ else _) = _; exact if_neg hRn⟩
    rcases hsrc with h1 | ⟨R', h2, h1⟩
    · rw [h1] at he; exact hold r he
    · rw [h1] at he
      change TMgr.get c (TMgr.setBatchF c fail db.table R') k = some r at he
      rw [(setBatchF_ok hi.table fail R').2.2 k] at he
      cases hl : lastWrite (TMgr.part fail R' (c.hash k % (db.table : TMgr K).parts)) k with
      | none => rw [hl] at he; exact hold r he
      | some x =>
        rw [hl] at he
        cases he
        obtain ⟨h3, h4, -⟩ := lastWrite_mem hl
        refine ⟨h2 _ ?_, h4⟩
        unfold TMgr.part at h3
        split at h3
        · exact h3
        · exact List.mem_of_mem_take h3
  -- the answer comes from the log, as without failures, or from the tables
  have hck : (db.flushLogsF fail o n).2.check .read = .ok := by simp [DB.check, hclF]
  have hck' : (db.flushLogs o n).2.check .read = .ok := by simp [DB.check, hcl]
  unfold DB.get at hans ⊢
  rw [if_neg (by simp [hck'])] at hans
  rw [if_neg (by simp [hck]), hlog]
  split
  · next r hl =>
    rw [hl] at hans
    simp only at hans
    rw [hans]
    unfold Spec.answer
    cases hw : lastWrite (A ++ B) k with
    | none => left; rfl
    | some x =>
      simp only
      split
      · right; exact ⟨x, (lastWrite_mem hw).1, (lastWrite_mem hw).2.1, rfl⟩
      · left; rfl
  · unfold DB.tableGet
    cases hg : (if (db.flushLogsF fail o n).2.log.cfg.logSectionOnly = true then none
        else (Lsm c parts hp).get (db.flushLogsF fail o n).2.table k) with
    | none => left; rfl
    | some r =>
      simp only
      split
      · right
        have : (Lsm c parts hp).get (db.flushLogsF fail o n).2.table k = some r := by
          split at hg
          · cases hg
          · exact hg
        exact ⟨r, (htab r this).1, (htab r this).2, rfl⟩
      · left; rfl

/-! ### compaction -/

/-- **C58 (part), compaction.**  Whatever fails, the keys of the victim that were written and all keys that
    are not in the victim read their last accepted write.  Missing: the keys that were not written; the
    victim is removed all the same (`C58_compact_missing`). -/
theorem C58_compact_partial {db : DB K (Lsm c parts hp)} {h : List (Rec K)} (hr : Reach db h)
    (hc : db.closing = false) {p : Nat} (hpp : p < (db.table : TMgr K).parts) (full : Nat → Bool)
    (bad lost : K → Bool) {k : K} (hk : k ∉ TMgr.unwrittenL0 (db.table : TMgr K) p full bad lost) :
    let db' : DB K (Lsm c parts hp) := { db with table := TMgr.compactL0EndF c db.table p full bad lost }
    db'.get k = Spec.answer h k := by
  intro db'
  obtain ⟨A, B, -, hi⟩ := hr.inv
  rw [← C01_get_returns_latest_write hr hc k]
  have h3 := (compactL0EndF_ok hi.table hpp full bad lost).2.1 k hk
  exact get_congr_top (S := Lsm c parts hp) (db := db) (db' := db') rfl rfl h3

/-- What `unwrittenL0` holds if nothing fails: nothing. -/
theorem unwrittenL0_nil (t : TMgr K) (p : Nat) (full : Nat → Bool) :
    t.unwrittenL0 p full (fun _ => false) (fun _ => false) = [] := by
  unfold TMgr.unwrittenL0
  split
  · rfl
  · unfold TMgr.unwritten
    rw [List.map_eq_nil_iff, List.filter_eq_nil_iff]
    intro a _
    simp [TMgr.written]

/-- **C58, which keys a compaction fails to write.**  Only keys of the victim, and only those whose record
    could not be read, or was sent to a file that had to be created: the name of that file is that of no
    table of the level below.  A failure to create files takes nothing that goes to an existing table. -/
theorem C58_compact_cause {db : DB K (Lsm c parts hp)} {h : List (Rec K)} (hr : Reach db h)
    {p : Nat} (hpp : p < (db.table : TMgr K).parts) (full : Nat → Bool)
    (bad lost : K → Bool) {k : K} (hk : k ∈ TMgr.unwrittenL0 (db.table : TMgr K) p full bad lost) :
    (∃ v, TMgr.srcOf (db.table : TMgr K) p = some v ∧ ∃ e ∈ v.recs, e.1 = k) ∧
    (lost k = true ∨ ∃ m, bad m = true ∧
      ∀ l, (db.table : TMgr K).lv.head? = some l → ∀ x ∈ l, x.minKey ≠ m) := by
  obtain ⟨A, B, -, hi⟩ := hr.inv
  have ht : TMgr.Inv c (db.table : TMgr K) := hi.table
  generalize (db.table : TMgr K) = t at *
  unfold TMgr.unwrittenL0 at hk
  cases hsv : t.srcOf p with
  | none => rw [hsv] at hk; cases hk
  | some v =>
    rw [hsv] at hk
    have hv := (srcOf_iff ht hpp v).1 hsv
    have hvr := ht.l0Recs v hv.1
    have hlok : LevelOk ((if t.lv.isEmpty then [[]] else t.lv).headD []) := by
      cases hlv : t.lv with
      | nil => exact LevelOk.nil
      | cons l ls => exact ht.lv l (by rw [hlv]; exact List.mem_cons_self)
    have hhead : ∀ l, t.lv.head? = some l → (if t.lv.isEmpty then [[]] else t.lv).headD [] = l := by
      intro l hl
      cases hlv : t.lv with
      | nil => rw [hlv] at hl; cases hl
      | cons l' ls => rw [hlv] at hl; cases hl; rfl
    have hasg := merge_asg hlok hvr.1 (fun e he => (hvr.2 e he).1) (vmin := v.minKey)
      (by intro e _; rw [ht.l0Min v hv.1]; exact bot_le) full
    simp only [TMgr.unwritten, List.mem_map, List.mem_filter] at hk
    obtain ⟨a, ⟨ha, hw⟩, hak⟩ := hk
    have hin : a.2 ∈ v.recs.map (·.2) := by
      rw [← hasg.2]; exact List.mem_map.2 ⟨a, ha, rfl⟩
    obtain ⟨e, he, hea⟩ := List.mem_map.1 hin
    refine ⟨⟨v, rfl, e, he, ?_⟩, ?_⟩
    · rw [← hak, ← hea, (hvr.2 e he).1]
    · by_cases hl : lost k = true
      · exact Or.inl hl
      · right
        have hfr : a.1.fresh = true ∧ bad a.1.minKey = true := by
          rw [← hak] at hl
          simpa [TMgr.written, hl] using hw
        refine ⟨a.1.minKey, hfr.2, ?_⟩
        intro l hlh x hx
        exact hasg.1.newsNe _ (hasg.1.new a ha hfr.1) x (by rw [hhead l hlh]; exact hx)

/-- **C58, negation for compactions.**  The keys that were not written read as if the table they were in had
    been deleted, and that is what happened: the compaction answers OK and removes it. -/
theorem C58_compact_missing {db : DB K (Lsm c parts hp)} {h : List (Rec K)} (hr : Reach db h)
    {p : Nat} (hpp : p < (db.table : TMgr K).parts) (full : Nat → Bool)
    (bad lost : K → Bool) {k : K} (hk : k ∈ TMgr.unwrittenL0 (db.table : TMgr K) p full bad lost) :
    DB.get (S := Lsm c parts hp) { db with table := (TMgr.compactL0EndF c db.table p full bad lost : TMgr K) } k
      = DB.get (S := Lsm c parts hp) { db with table := (TMgr.withoutSrc db.table p : TMgr K) } k := by
  obtain ⟨A, B, -, hi⟩ := hr.inv
  have h3 := (compactL0EndF_ok hi.table hpp full bad lost).2.2 k hk
  exact get_congr_top (S := Lsm c parts hp)
    (db := { db with table := (TMgr.withoutSrc db.table p : TMgr K) })
    (db' := { db with table := (TMgr.compactL0EndF c db.table p full bad lost : TMgr K) }) rfl rfl (Or.inl h3)

end

/-! ### Examples -/

namespace FailEx

def c : TCfg Nat := { hash := fun k => k }
theorem plain : ({} : Cfg).Plain := ⟨rfl, rfl, rfl, by decide⟩
abbrev D := DB Nat (Lsm c 2 (by decide))

def s1 := (Cmd.start c 2 (by decide) {} [.put 4 1, .put 5 2, .put 6 3, .sync]).get (by decide +kernel)
theorem rs1 : Reach s1.1 s1.2 := Cmd.start_reach plain (Option.some_get _).symm

/-- The disk is full when the second record of partition 0 is written. -/
def full0 : Nat → Option Nat := fun p => if p = 0 then some 1 else none

/-- C58 is false for `flushLogs`: it answers OK, a record that was written, synced and readable is gone,
    `getLastFlushedSeqNum` covers it, and flushing again does not bring it back. -/
theorem C58_flush_lost_violation : ∃ (db : D) (h : List (Rec Nat)) (fail : Nat → Option Nat),
    Reach db h ∧ db.get 6 = (.ok, some [3]) ∧
    (db.flushLogsF fail {}).1 = .ok ∧
    (db.flushLogsF fail {}).2.get 6 = (.keyNotFound, none) ∧
    (db.flushLogsF fail {}).2.getLastFlushedSeqNum = some 3 ∧
    ((db.flushLogsF fail {}).2.flushLogs {}).2.get 6 = (.keyNotFound, none) :=
  ⟨s1.1, s1.2, full0, rs1, by decide +kernel, by decide +kernel, by decide +kernel, by decide +kernel,
    by decide +kernel⟩

/-- In the same run the key of partition 1 is safe, by the theorem. -/
example : (s1.1.flushLogsF full0 {}).2.get 5 = (.ok, some [2]) := by
  rw [C58_other_partitions_partial rs1 rfl full0 rfl (Or.inl rfl) (by decide +kernel)]
  decide +kernel

/-- A key that was overwritten: after the failed flush the old value is returned. -/
def s2 := (Cmd.run s1 [.flush, .put 6 9, .sync]).get (by decide +kernel)
theorem rs2 : Reach s2.1 s2.2 := Cmd.run_reach rs1 (Option.some_get _).symm

theorem C58_flush_stale_violation : ∃ (db : D) (h : List (Rec Nat)) (fail : Nat → Option Nat),
    Reach db h ∧ db.get 6 = (.ok, some [9]) ∧
    (db.flushLogsF fail {}).1 = .ok ∧ (db.flushLogsF fail {}).2.get 6 = (.ok, some [3]) :=
  ⟨s2.1, s2.2, fun _ => some 0, rs2, by decide +kernel, by decide +kernel, by decide +kernel⟩

/-- A deleted key comes back. -/
def s3 := (Cmd.run s1 [.flush, .rm 6, .sync]).get (by decide +kernel)
theorem rs3 : Reach s3.1 s3.2 := Cmd.run_reach rs1 (Option.some_get _).symm

theorem C58_flush_undeleted_violation : ∃ (db : D) (h : List (Rec Nat)) (fail : Nat → Option Nat),
    Reach db h ∧ db.get 6 = (.keyNotFound, none) ∧
    (db.flushLogsF fail {}).1 = .ok ∧ (db.flushLogsF fail {}).2.get 6 = (.ok, some [3]) :=
  ⟨s3.1, s3.2, fun _ => some 0, rs3, by decide +kernel, by decide +kernel, by decide +kernel⟩

/-- A level-0 compaction has begun. -/
def s4 := (Cmd.run s1 [.flush, .l0Begin 0]).get (by decide +kernel)
theorem rs4 : Reach s4.1 s4.2 := Cmd.run_reach rs1 (Option.some_get _).symm

/-- C58 is false for compactions: the new table file cannot be created, the keys of the partition are
    gone. -/
theorem C58_compact_lost_violation : ∃ (db : D) (h : List (Rec Nat)) (bad : Nat → Bool),
    Reach db h ∧ db.get 6 = (.ok, some [3]) ∧
    DB.get (S := Lsm c 2 (by decide)) { db with table :=
      (TMgr.compactL0EndF c db.table 0 (fun _ => false) bad (fun _ => false) : TMgr Nat) } 6
      = (.keyNotFound, none) :=
  ⟨s4.1, s4.2, fun _ => true, rs4, by decide +kernel, by decide +kernel⟩

/-- One record cannot be copied: the others are safe, by the theorem; it is gone. -/
example : DB.get (S := Lsm c 2 (by decide)) { s4.1 with table :=
      (TMgr.compactL0EndF c s4.1.table 0 (fun _ => false) (fun _ => false) (fun k => k == 6) : TMgr Nat) } 4
      = (.ok, some [1]) := by
  refine (C58_compact_partial rs4 rfl (by decide +kernel) _ _ _ (by decide +kernel)).trans ?_
  decide +kernel
example : 6 ∈ TMgr.unwrittenL0 (s4.1.table : TMgr Nat) 0 (fun _ => false) (fun _ => false) (fun k => k == 6) := by
  decide +kernel

/-- The value that had been overwritten is returned after the compaction. -/
def s5 := (Cmd.run s4 [.l0End 0, .put 6 9, .sync, .flush, .l0Begin 0]).get (by decide +kernel)
theorem rs5 : Reach s5.1 s5.2 := Cmd.run_reach rs4 (Option.some_get _).symm

theorem C58_compact_stale_violation : ∃ (db : D) (h : List (Rec Nat)) (lost : Nat → Bool),
    Reach db h ∧ db.get 6 = (.ok, some [9]) ∧
    DB.get (S := Lsm c 2 (by decide)) { db with table :=
      (TMgr.compactL0EndF c db.table 0 (fun _ => false) (fun _ => false) lost : TMgr Nat) } 6
      = (.ok, some [3]) :=
  ⟨s5.1, s5.2, fun k => k == 6, rs5, by decide +kernel, by decide +kernel⟩

end FailEx
end Jungle
