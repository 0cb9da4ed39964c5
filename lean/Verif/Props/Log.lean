/-
  Lookup by number, batches under concurrent readers, positions of the log:
  C05, C12, C37, and the cases where the code does not keep C04, C06, C12, C37.
-/
import Verif.Props.KV
import Verif.Log.BarrierLemmas

set_option linter.unusedSectionVars false

namespace Jungle
open Spec MemTable
variable {K : Type} [LinearOrder K] {S : TableSys K}

/-! ### C05: lookup by sequence number -/

theorem LogInv.lastFlushed_eq {l : LogMgr K} {A B} (h : LogInv l A B) {f fs} (hf : l.files = f :: fs) :
    l.getLastFlushedSeqNum = if f.mem.flushedSeqNum = NIL then none else some f.mem.flushedSeqNum := by
  unfold LogMgr.getLastFlushedSeqNum
  rw [h.getLastFlushedLog_eq]
  have hm : l.minNum = f.num := by unfold LogMgr.minNum; rw [hf]
  rw [hm, h.file?_mem (f := f) (by rw [hf]; simp)]

theorem LogMgr.getSN_none (l : LogMgr K) (n : Nat) (h : (l.getSN n).2 = none) : (l.getSN n).1 ≠ .ok := by
  revert h
  unfold LogMgr.getSN
  split
  · intro _; simp
  · split
    · intro _; simp
    · unfold MemTable.findRecordBySeq
      split
      · intro _; simp
      · split
        · intro h; simp at h
        · intro _; simp

/-- C05: a record that is not flushed yet is found under its number, unchanged. -/
theorem C05_getRecord_complete {db : DB K S} {h : List (Rec K)} (hr : Reach db h)
    (hc : db.closing = false) {r : Rec K} (hm : r ∈ h)
    (hnf : ∀ m, db.getLastFlushedSeqNum = some m → m < r.seq) :
    db.getRecord r.seq = (.ok, some r) := by
  obtain ⟨A, B, rfl, hi⟩ := hr.inv
  have hB : r ∈ B := by
    rcases List.mem_append.1 hm with hA | hB
    · exfalso
      obtain ⟨f, fs, hf⟩ := List.exists_cons_of_ne_nil hi.log.ne
      have h1 := hi.log.mark f fs hf r hA
      have h2 := hi.log.lastFlushed_eq hf
      rw [if_neg h1.1] at h2
      have := hnf _ h2
      omega
    · exact hB
  unfold DB.getRecord
  rw [if_neg (by simp [DB.check, hc]), hi.log.getSN_pending hB]

/-- C05: whatever is returned for number `n` is the record that was written with number `n`. -/
theorem C05_getRecord_sound {db : DB K S} {h : List (Rec K)} (hr : Reach db h) {n : Nat} {st : Status}
    {r : Rec K} (hg : db.getRecord n = (st, some r)) : st = .ok ∧ r ∈ h ∧ r.seq = n := by
  obtain ⟨A, B, rfl, hi⟩ := hr.inv
  unfold DB.getRecord at hg
  split at hg
  · cases hg
  · split at hg
    · next r' he =>
      cases hg
      obtain ⟨-, h2, h3⟩ := hi.log.getSN_sound he
      exact ⟨rfl, by simp [h2], h3⟩
    · cases hg

/-- C05: a number that was never given out is an error. -/
theorem C05_getRecord_unused {db : DB K S} {h : List (Rec K)} (hr : Reach db h) {n : Nat}
    (hn : ∀ r ∈ h, r.seq ≠ n) : (db.getRecord n).1 ≠ .ok ∧ (db.getRecord n).2 = none := by
  obtain ⟨A, B, rfl, hi⟩ := hr.inv
  unfold DB.getRecord
  split
  · next hc => exact ⟨hc, rfl⟩
  · cases hg : db.log.getSN n with
    | mk s o =>
      cases o with
      | some r =>
        exfalso
        obtain ⟨-, h2, h3⟩ := hi.log.getSN_sound hg
        exact hn r (by simp [h2]) h3
      | none =>
        have := db.log.getSN_none n (by rw [hg])
        rw [hg] at this
        cases s <;> first | exact absurd rfl this | exact ⟨by simp, rfl⟩

/-- C05: `getSN` gives key and value of an insertion and NOT_KV_PAIR for anything else. -/
theorem C05_getSN {db : DB K S} {h : List (Rec K)} (hr : Reach db h)
    (hc : db.closing = false) {r : Rec K} (hm : r ∈ h)
    (hnf : ∀ m, db.getLastFlushedSeqNum = some m → m < r.seq) :
    db.getSN r.seq = if r.isIns then (.ok, some (r.key, r.val)) else (.notKvPair, none) := by
  have h1 := C05_getRecord_complete hr hc hm hnf
  unfold DB.getRecord at h1
  unfold DB.getSN
  rw [if_neg (by simp [DB.check, hc])] at h1 ⊢
  cases hg : db.log.getSN r.seq with
  | mk s o =>
    rw [hg] at h1
    cases s <;> cases o <;> simp_all

example : Example.d5.getRecord 3 = (.ok, some { seq := 3, type := .deletion, key := 5 }) :=
  C05_getRecord_complete Example.r5 rfl (r := { seq := 3, type := .deletion, key := 5 })
    (by decide) (by intro m hm; have : m = 2 := by revert hm; decide +revert
                    subst this; decide)
example : (Example.d5.getRecord 9).1 ≠ .ok := (C05_getRecord_unused Example.r5 (by decide)).1

/-! ### C12: a batch under concurrent readers -/

theorem DBInv.duringBatch {db : DB K S} {A B} (h : DBInv db A B) {b : List (Rec K)} {j : Nat}
    (hb : db.log.batchOk b) :
    ∃ l', LogInv l' A (B ++ number (db.log.getMaxSeqNum.getD 0) (b.take j)) ∧
      l'.cfg = db.log.cfg ∧
      (∀ r ∈ number (db.log.getMaxSeqNum.getD 0) (b.take j), db.log.getMaxSeqNum.getD 0 < r.seq) ∧
      db.duringBatch b j = { db with log := { l' with barrier := db.log.getMaxSeqNum.getD 0 } } := by
  have hb' : db.log.batchOk (b.take j) := by
    rcases hb with ⟨h1, h2⟩ | ⟨h1, h2⟩
    · refine Or.inl ⟨fun r hr => h1 r (List.mem_of_mem_take hr), ?_⟩
      have : (b.take j).length ≤ b.length := by rw [List.length_take]; omega
      omega
    · refine Or.inr ⟨?_, fun r hr => h2 r (List.mem_of_mem_take hr)⟩
      refine List.Pairwise.sublist ?_ h1
      exact List.Sublist.cons_cons _ ((List.take_sublist j b).map _)
  obtain ⟨l', hl, ho⟩ := h.log.setMultiInternal (b.take j) hb'
  refine ⟨l', ho.inv, ho.cfg, ?_, ?_⟩
  · intro r hr
    exact (List.pairwise_cons.1 ho.inc).1 _ (List.mem_map_of_mem hr)
  · unfold DB.duringBatch
    rw [setMultiInternal_barrier, hl]

/-- C12 (partial: the DB must already hold a record): at every point of a running batch, a
    reader sees exactly what it saw before the batch; no record of the batch is visible by key or
    by number.  What is missing is the empty DB, where the claim is false, see
    `C12_empty_db_violation`. -/
theorem C12_batch_invisible_while_running_partial {db : DB K S} {h : List (Rec K)} (hr : Reach db h)
    (hne : h ≠ []) {b : List (Rec K)} (hfit : db.Fits b.length) (hv : db.ValidBatch b) (j : Nat) :
    (∀ k, (db.duringBatch b j).get k = db.get k ∧
          (db.duringBatch b j).getRecordByKey k = db.getRecordByKey k) ∧
    (∀ n, ((db.duringBatch b j).getRecord n).2 = (db.getRecord n).2) ∧
    (db.duringBatch b j).getMaxSeqNum = db.getMaxSeqNum := by
  have hmax := (C04_numbers_increase hr).2.2
  have hposn := (C04_numbers_increase hr).2.1
  have hincr := (C04_numbers_increase hr).1
  obtain ⟨A, B, rfl, hi⟩ := hr.inv
  have hb := ((hi.validBatch_iff b hfit).1 hv).2
  obtain ⟨l', hl, hcfg, hab, he⟩ := hi.duringBatch (j := j) hb
  obtain ⟨L, x, hx⟩ : ∃ L x, A ++ B = L ++ [x] :=
    ⟨_, _, (List.dropLast_concat_getLast hne).symm⟩
  have hmx : db.log.getMaxSeqNum = some x.seq := by
    have : db.getMaxSeqNum = some x.seq := by rw [hmax, hx]; simp
    exact this
  have hxp := hposn x (by rw [hx]; simp)
  have hle : ∀ r ∈ A ++ B, r.seq ≤ x.seq := by
    intro r hr'
    rw [hx] at hr' hincr
    rcases List.mem_append.1 hr' with hr' | hr'
    · exact Nat.le_of_lt ((List.pairwise_append.1 hincr).2.2 r hr' x (by simp))
    · simp only [List.mem_singleton] at hr'; rw [hr']
  rw [hmx] at hl hab he
  simp only [Option.getD_some] at hl hab he
  have hupto : upto (B ++ number x.seq (b.take j)) x.seq = B := by
    rw [upto_append, upto_eq_self (fun r hr' => hle r (by simp [hr']))]
    have : upto (number x.seq (b.take j)) x.seq = [] := by
      unfold MemTable.upto
      rw [List.filter_eq_nil_iff]
      intro r hr'
      have := hab r hr'
      simp; omega
    rw [this, List.append_nil]
  have hget : ∀ k, (db.duringBatch b j).log.get k = db.log.get k := by
    intro k
    rw [he]
    show ({ l' with barrier := x.seq } : LogMgr K).get k = _
    rw [hl.get_barrier x.seq (by omega) hxp.2 (by rw [hcfg]; exact hi.mode), hupto, hi.log.get_eq]
    cases lastWrite B k <;> rfl
  have hrest : (db.duringBatch b j).table = db.table ∧ (db.duringBatch b j).closing = db.closing ∧
      (db.duringBatch b j).rollbackInProgress = db.rollbackInProgress ∧
      (db.duringBatch b j).log.cfg = db.log.cfg := by
    rw [he]; exact ⟨rfl, rfl, rfl, hcfg⟩
  have hchk : ∀ o, (db.duringBatch b j).check o = db.check o := by
    intro o; unfold DB.check; rw [hrest.2.1, hrest.2.2.1]
  have hrec : ∀ k, (db.duringBatch b j).getRecordByKey k = db.getRecordByKey k := by
    intro k
    unfold DB.getRecordByKey DB.tableGet
    rw [hchk, hget, hrest.2.2.2, hrest.1]
  refine ⟨fun k => ⟨by rw [DB.get_of_record, DB.get_of_record, hrec], hrec k⟩, ?_, ?_⟩
  · intro n
    unfold DB.getRecord
    rw [hchk]
    by_cases hck : db.check .read = .ok
    · simp only [hck, ne_eq, not_true_eq_false, if_false]
      have hbar := hl.getSN_barrier x.seq (by omega) n
      have hlog : (db.duringBatch b j).log = { l' with barrier := x.seq } := by rw [he]
      rw [hlog]
      by_cases hn : n ≤ x.seq
      · rw [hbar.1 hn]
        -- both logs answer with the pending record of that number, if any
        cases hg : l'.getSN n with
        | mk s o =>
          cases o with
          | some r =>
            obtain ⟨hs, hrB, hrn⟩ := hl.getSN_sound hg
            subst hs
            have : r ∈ B := by
              rcases List.mem_append.1 hrB with h1 | h1
              · exact h1
              · have := hab r h1; omega
            rw [← hrn, hi.log.getSN_pending this]
          | none =>
            cases hg2 : db.log.getSN n with
            | mk s2 o2 =>
              cases o2 with
              | none => cases s <;> cases s2 <;> rfl
              | some r =>
                obtain ⟨-, hrB, hrn⟩ := hi.log.getSN_sound hg2
                have := hl.getSN_pending (r := r) (by simp [hrB])
                rw [hrn, hg] at this; cases this
      · have h1 := hbar.2 (by omega)
        have h2 : (db.log.getSN n).2 = none := by
          cases hg2 : db.log.getSN n with
          | mk s2 o2 =>
            cases o2 with
            | none => rfl
            | some r =>
              obtain ⟨-, hrB, hrn⟩ := hi.log.getSN_sound hg2
              have := hle r (by simp [hrB]); omega
        have h1 := h1.1
        revert h1 h2
        generalize ({ l' with barrier := x.seq } : LogMgr K).getSN n = p
        generalize db.log.getSN n = q
        obtain ⟨s1, o1⟩ := p
        obtain ⟨s2, o2⟩ := q
        intro h1 h2
        simp only at h1 h2
        subst h1; subst h2
        cases s1 <;> cases s2 <;> rfl
    · simp only [if_pos hck]
  · show (db.duringBatch b j).log.getMaxSeqNum = db.log.getMaxSeqNum
    rw [he, hmx]
    unfold LogMgr.getMaxSeqNum
    rw [if_pos (by show x.seq ≠ 0; omega)]

/-- After the batch, a reader sees all of it. -/
theorem C12_batch_visible_after {db db' : DB K S} {h : List (Rec K)} (hr : Reach db h)
    {b : List (Rec K)} (hfit : db.Fits b.length) (hN : ∀ r ∈ b, r.seq ≤ NIL)
    (hs : db.setRecordBatch b = (.ok, db')) (hc : db'.closing = false) (k : K) :
    db'.get k = Spec.answer (h ++ number (db.getMaxSeqNum.getD 0) b) k :=
  C01_get_returns_latest_write (Reach.batch b hr hfit hN hs) hc k

def Example.b2 : List (Rec Nat) :=
  [{ seq := NIL, type := .insertion, key := 5, val := [8] },
   { seq := NIL, type := .insertion, key := 6, val := [9] }]

example (k : Nat) : (Example.d5.duringBatch Example.b2 1).get k = Example.d5.get k :=
  ((C12_batch_invisible_while_running_partial Example.r5 (by decide) (b := Example.b2)
    (by unfold DB.Fits; decide) ⟨by decide, Or.inl (by decide)⟩ 1).1 k).1
/-- the first record of the batch really is in the log file at that point -/
example : (Example.d5.duringBatch Example.b2 1).log.files.map (fun f => f.mem.bySeq.length) = [2, 2] ∧
    Example.d5.log.files.map (fun f => f.mem.bySeq.length) = [2, 1] := by decide

/-- The code breaks C12 on an empty DB: with no record yet, the barrier is 0, which means "no
    barrier", and a reader sees the first record of the running batch but not the second
    (src/log_mgr.cc:707-712,909). -/
theorem C12_empty_db_violation :
    ∃ (db : DB Nat (Flat Nat)) (b : List (Rec Nat)), Reach db [] ∧ db.ValidBatch b ∧
      (db.duringBatch b 1).get 5 = (.ok, some [8]) ∧ (db.duringBatch b 1).get 6 = (.keyNotFound, none) :=
  ⟨Example.d0, Example.b2, Example.r0, ⟨by decide, Or.inl (by decide)⟩, by decide, by decide⟩

/-- A flush that runs while a batch is being written moves records of the unfinished batch to
    the tables, although the barrier was consulted (src/log_mgr.cc:1399-1450: the adjusted number
    is overwritten). -/
theorem C12_flush_ignores_barrier_violation :
    ∃ (db : DB Nat (Flat Nat)) (h : List (Rec Nat)) (b : List (Rec Nat)), Reach db h ∧ h ≠ [] ∧ db.ValidBatch b ∧
      (((db.duringBatch b 1).flushLogs { beyondLastSync := true }).2).get 5 = (.ok, some [8]) ∧
      (((db.duringBatch b 1).flushLogs { beyondLastSync := true }).2).get 6 = (.ok, some [2]) :=
  ⟨Example.d5, _, Example.b2, Example.r5, by decide, ⟨by decide, Or.inl (by decide)⟩, by decide, by decide⟩

/-! ### C04: numbers given by the caller -/

/-- C04, partial: a number that is not above the newest one is refused and nothing changes, as
    long as the write goes to the newest file.  Missing: the case in which the write opens a new
    log file, where the code accepts it, see `C04_rotation_violation`. -/
theorem C04_old_number_refused_partial {db : DB K S} {h : List (Rec K)} (hr : Reach db h) (r : Rec K)
    (hc : db.closing = false) (hrb : db.rollbackInProgress = false)
    {m : Nat} (hm : db.getMaxSeqNum = some m) (hle : r.seq ≤ m)
    {f : LogFile K} (hf : db.log.files.getLast? = some f) (hw : f.isValidToWrite db.log.cfg false = true) :
    db.setRecord r false = (.invalidSeqnum, db) := by
  obtain ⟨A, B, rfl, hi⟩ := hr.inv
  obtain ⟨fs, g, hg⟩ := hi.log.split_last
  have : g = f := by rw [hg] at hf; simpa using hf
  subst this
  have hgm : g ∈ db.log.files := by rw [hg]; simp
  have hfi : db.log.file? db.log.maxNum = some g := by
    rw [← hi.log.last_num hg]; exact hi.log.file?_mem hgm
  have hmx := hi.log.getMax_eq hg
  have hmm : db.log.getMaxSeqNum = some m := hm
  rw [hmm] at hmx
  have hgN : g.mem.maxSeqNum ≠ NIL := by
    intro e; rw [if_neg (by simp [e])] at hmx; cases hmx
  rw [if_pos hgN] at hmx
  have hmeq : g.mem.maxSeqNum = m := (Option.some.inj hmx).symm
  have hput := MemTable.put_reject (hi.log.wf g hgm) (r := r) (cfg := db.log.cfg) hi.log.noOv hgN (by omega)
  have hs : db.log.setSN r false = (.invalidSeqnum, db.log) := by
    by_cases h0 : r.seq = 0
    · unfold LogMgr.setSN; rw [if_neg (by simp [hi.log.rw]), if_pos h0]
    · cases he : db.log.setSN r false with
      | mk st l' =>
        have hst : st = .invalidSeqnum := by
          have : (db.log.setSN r false).1 = .invalidSeqnum := by
            unfold LogMgr.setSN
            rw [if_neg (by simp [hi.log.rw]), if_neg h0, if_neg (Nat.ne_of_lt hi.log.numN)]
            simp only [hi.log.noOv, Bool.and_false, Bool.false_eq_true, if_false, Option.orElse, hfi,
              Bool.false_and, Bool.not_false, Bool.and_true, LogFile.setSN_eq hi.log.noOv, hw, Bool.not_true, hput]
            rfl
          rw [he] at this; exact this
        have := hi.log.setSN_refused r false he (by rw [hst]; decide)
        rw [hst, this]
  unfold DB.setRecord
  rw [if_neg (by simp [DB.check, hc, hrb]), hs]

example : Example.d3.setRecord { seq := 2, type := .insertion, key := 1 } false = (.invalidSeqnum, Example.d3) :=
  C04_old_number_refused_partial Example.r3 _ rfl rfl (m := 3) (by decide) (by decide) (f := (Example.d3.log.files[1]'(by decide)))
    (by decide) (by decide)

/-- The code breaks that clause of C04 when the newest log file is full: the number is checked
    only against the new, empty file (src/memtable.cc:365-372), so number 5 is accepted after
    number 10, and the maximum goes backwards. -/
theorem C04_rotation_violation :
    ∃ (db : DB Nat (Flat Nat)) (h : List (Rec Nat)), Reach db h ∧ db.getMaxSeqNum = some 10 ∧
      (db.setSN 5 7 [1]).1 = .ok ∧ (db.setSN 5 7 [1]).2.getMaxSeqNum = some 5 :=
  ⟨_, _, Reach.set (db' := ((DB.init (Flat Nat) { maxEntries := 1 }).setSN 10 7 [0]).2)
      { seq := 10, type := .insertion, key := 7, val := [0] } false
      (Reach.init { maxEntries := 1 } ⟨rfl, rfl, rfl, by decide⟩)
      (by unfold DB.Fits; decide) (Or.inr ⟨by decide, by intro m hm; cases hm⟩) (fun _ => rfl) (by rfl),
    by decide, by decide, by decide⟩

/-! ### C37: positions -/

/-- C37: last flushed ≤ last synced ≤ maximum, whenever they are defined. -/
theorem C37_positions_ordered {db : DB K S} {h : List (Rec K)} (hr : Reach db h) :
    (∀ a b, db.getLastFlushedSeqNum = some a → db.getLastSyncedSeqNum = some b → a ≤ b) ∧
    (∀ b, db.getLastSyncedSeqNum = some b → ∃ c, db.getMaxSeqNum = some c ∧ b ≤ c) ∧
    (∀ a, db.getLastFlushedSeqNum = some a → ∃ c, db.getMaxSeqNum = some c ∧ a ≤ c) := by
  obtain ⟨A, B, rfl, hi⟩ := hr.inv
  obtain ⟨f, fs, hf⟩ := List.exists_cons_of_ne_nil hi.log.ne
  have hff : f ∈ db.log.files := by rw [hf]; simp
  obtain ⟨gs, g, hg⟩ := hi.log.split_last
  have hgg : g ∈ db.log.files := by rw [hg]; simp
  have hmx : db.getMaxSeqNum = _ := hi.log.getMax_eq hg
  have hfl : db.getLastFlushedSeqNum = _ := hi.log.lastFlushed_eq hf
  have hmn : db.log.minNum = f.num := by unfold LogMgr.minNum; rw [hf]
  have top : ∀ x ∈ db.log.files, x.mem.maxSeqNum ≠ NIL →
      g.mem.maxSeqNum ≠ NIL ∧ x.mem.maxSeqNum ≤ g.mem.maxSeqNum := by
    intro x hx hm
    have hn := hi.log.num_range hx
    have hgn := hi.log.last_num hg
    by_cases e : x.num = g.num
    · have h1 := hi.log.file?_mem hx
      have h2 := hi.log.file?_mem hgg
      rw [e, h2] at h1
      have := Option.some.inj h1; subst this; exact ⟨hm, Nat.le_refl _⟩
    · exact (hi.log.max_le hx hgg (by omega)).max hm
  have hsy : ∀ b, db.getLastSyncedSeqNum = some b → ∃ x ∈ db.log.files,
      x.mem.syncedSeqNum = b ∧ x.mem.syncedSeqNum ≠ NIL := by
    intro b hb
    unfold DB.getLastSyncedSeqNum LogMgr.getLastSyncedSeqNum at hb
    cases hx : db.log.file? db.log.lastSynced with
    | none => rw [hx] at hb; cases hb
    | some x =>
      rw [hx] at hb
      simp only at hb
      split at hb
      · cases hb
      · next hne => cases hb; exact ⟨x, List.mem_of_find?_eq_some hx, rfl, hne⟩
  refine ⟨?_, ?_, ?_⟩
  · intro a b ha hb
    rw [hfl] at ha
    split at ha
    · cases ha
    · next hfn =>
      cases ha
      obtain ⟨x, hx, rfl, hxn⟩ := hsy b hb
      have hwf := hi.log.wf f hff
      have hfm : f.mem.flushedSeqNum ≤ f.mem.maxSeqNum ∧ f.mem.maxSeqNum < NIL := by
        rcases hwf.flushed with h | h
        · exact absurd h hfn
        · exact h
      by_cases e : x.num = f.num
      · have h1 := hi.log.file?_mem hx
        have h2 := hi.log.file?_mem hff
        rw [e, h2] at h1
        have := Option.some.inj h1; subst this
        rcases hwf.order with h | h | h
        · exact absurd h hxn
        · exact absurd h hfn
        · exact h
      · have hn := hi.log.num_range hx
        have hb' := hi.log.max_le hff hx (by omega)
        have := hb'.synced hb'.ne hxn
        omega
  · intro b hb
    obtain ⟨x, hx, rfl, hxn⟩ := hsy b hb
    have hwf := hi.log.wf x hx
    rcases hwf.synced with h | h
    · exact absurd h hxn
    · have := top x hx (by omega)
      exact ⟨g.mem.maxSeqNum, by rw [hmx, if_pos this.1], by omega⟩
  · intro a ha
    rw [hfl] at ha
    split at ha
    · cases ha
    · next hfn =>
      cases ha
      have hwf := hi.log.wf f hff
      rcases hwf.flushed with h | h
      · exact absurd h hfn
      · have := top f hff (by omega)
        exact ⟨g.mem.maxSeqNum, by rw [hmx, if_pos this.1], by omega⟩

example : Example.d5.getLastFlushedSeqNum = some 2 ∧ Example.d5.getLastSyncedSeqNum = some 3 ∧
    Example.d6.getMaxSeqNum = some 5 := by decide

namespace Example
def e0 : DB Nat (Flat Nat) := DB.init (Flat Nat) { maxEntries := 4 }
def e1 := (e0.set 7 [1]).2
def e2 := e1.sync.2
def e3 := (e2.set 8 [2]).2
theorem re3 : ∃ h, Reach e3 h :=
  ⟨_, Reach.set (db' := e3) { seq := NIL, type := .insertion, key := 8, val := [2] } false
    (Reach.sync (db' := e2) (st := .ok) (Reach.set (db' := e1)
      { seq := NIL, type := .insertion, key := 7, val := [1] } false
      (Reach.init { maxEntries := 4 } ⟨rfl, rfl, rfl, by decide⟩)
      (by unfold DB.Fits; decide) (Or.inl rfl) (fun _ => rfl) rfl) rfl)
    (by unfold DB.Fits; decide) (Or.inl rfl) (fun _ => rfl) rfl⟩
end Example

/-- "Only synced records are moved to tables" is broken by a flush up to a number above the
    synced one in the same log file: number 2 goes to a table while the last synced number is
    still 1 (src/log_mgr.cc:1444-1452, src/memtable.cc:1503-1559). -/
theorem C37_unsynced_flushed_violation :
    ∃ (db : DB Nat (Flat Nat)) (h : List (Rec Nat)), Reach db h ∧
      (db.flushLogs {} 2).1 = .ok ∧ (db.flushLogs {} 2).2.getLastSyncedSeqNum = some 1 ∧
      ((Flat Nat).get (db.flushLogs {} 2).2.table 8).map (·.seq) = some 2 := by
  obtain ⟨h, hr⟩ := Example.re3
  exact ⟨Example.e3, h, hr, by decide, by decide, by decide⟩

/-! ### C06: flushes up to numbers that `DB.FlushSeq` excludes -/

namespace Example
/-- three log files with one record each: 1, 10, 20 -/
def g0 : DB Nat (Flat Nat) := DB.init (Flat Nat) { maxEntries := 1 }
def g1 := (g0.setSN 1 1 [1]).2
def g1s := g1.sync.2
def g2 := (g1s.setSN 10 2 [2]).2
def g3 := (g2.setSN 20 3 [3]).2
def g4 := g3.sync.2

theorem rg0 : Reach g0 [] := Reach.init { maxEntries := 1 } ⟨rfl, rfl, rfl, by decide⟩
theorem rg1s : ∃ h, Reach g1s h := ⟨_, Reach.sync (st := .ok) (Reach.set (db' := g1)
    { seq := 1, type := .insertion, key := 1, val := [1] } false rg0
    (by unfold DB.Fits; decide) (Or.inr ⟨by decide, by intro m hm; cases hm⟩) (fun _ => rfl) rfl) rfl⟩
theorem rg2 : ∃ h, Reach g2 h := rg1s.elim fun _ hr => ⟨_, Reach.set (db' := g2)
    { seq := 10, type := .insertion, key := 2, val := [2] } false hr
    (by unfold DB.Fits; decide)
    (Or.inr ⟨by decide, by intro m hm; have : some 1 = some m := hm; cases this; decide⟩) (fun _ => rfl) rfl⟩
theorem rg3 : ∃ h, Reach g3 h := rg2.elim fun _ hr => ⟨_, Reach.set (db' := g3)
    { seq := 20, type := .insertion, key := 3, val := [3] } false hr
    (by unfold DB.Fits; decide)
    (Or.inr ⟨by decide, by intro m hm; have : some 10 = some m := hm; cases this; decide⟩) (fun _ => rfl) rfl⟩
theorem rg4 : ∃ h, Reach g4 h := rg3.elim fun _ hr => ⟨_, Reach.sync (st := .ok) hr rfl⟩
end Example

/-- The code breaks C06 when the bound lies in a gap of the numbering: records 1, 10, 20 in
    three synced files, `flushLogs(5)` answers OK and removes the file of record 10 without
    having moved it (src/log_mgr.cc:1444-1452,1536-1560). -/
theorem C06_gap_violation :
    ∃ (db : DB Nat (Flat Nat)) (h : List (Rec Nat)), Reach db h ∧ db.get 2 = (.ok, some [2]) ∧
      (db.flushLogs {} 5).1 = .ok ∧ (db.flushLogs {} 5).2.get 2 = (.keyNotFound, none) :=
  Example.rg4.elim fun h hr => ⟨Example.g4, h, hr, by decide, by decide, by decide⟩

/-- The code breaks C06 when the bound is the number of a record that is not synced and lies in
    a later file: the files in between are skipped by the flush because they are not synced, and
    then removed (src/log_mgr.cc:1472-1482,1536-1560). -/
theorem C06_unsynced_violation :
    ∃ (db : DB Nat (Flat Nat)) (h : List (Rec Nat)), Reach db h ∧ db.get 2 = (.ok, some [2]) ∧
      (db.flushLogs {} 20).1 = .ok ∧ (db.flushLogs {} 20).2.get 2 = (.keyNotFound, none) :=
  Example.rg3.elim fun h hr => ⟨Example.g3, h, hr, by decide, by decide, by decide⟩

/-- After such a flush the next `flushLogs` follows a null pointer: the last synced file is no
    longer in the log (src/log_mgr.cc:1417-1425). -/
theorem C06_flush_after_unsynced_violation :
    ∃ (db : DB Nat (Flat Nat)) (h : List (Rec Nat)), Reach db h ∧
      ((db.flushLogs {} 20).2.flushLogs {} NIL).1 = .undefinedBehaviour :=
  Example.rg3.elim fun h hr => ⟨Example.g3, h, hr, by decide⟩

end Jungle
