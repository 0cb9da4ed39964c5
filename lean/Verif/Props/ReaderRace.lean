/-
  C12, C14: readers that are interrupted while a batch runs, and what the code gets wrong there.
-/
import Verif.DB.ReaderRace
import Verif.Props.GlobalBatch
import Verif.Props.Iter

namespace Jungle
open Spec MemTable
set_option linter.unusedSectionVars false
variable {K : Type} [LinearOrder K] {S : TableSys K}

/-- C12 (partial: the barrier is loaded while the batch runs, or everything is loaded after it): a
    reader that loads the newest numbers at one point of the batch and the barrier at another sees
    the state before the batch.  Missing: the barrier is loaded after the batch, see
    `C12_reader_race_violation`. -/
theorem C12_two_moments_partial {db : DB K S} {h : List (Rec K)} (hr : Reach db h)
    (hne : h ≠ []) {b : List (Rec K)} (hfit : db.Fits b.length) (hv : db.ValidBatch b) (i j : Nat) (k : K) :
    DB.getSplit (db.duringBatch b i) (db.duringBatch b j) k = db.get k := by
  have hmax := (C04_numbers_increase hr).2.2
  have hposn := (C04_numbers_increase hr).2.1
  have hincr := (C04_numbers_increase hr).1
  obtain ⟨A, B, rfl, hi⟩ := hr.inv
  have hb := ((hi.validBatch_iff b hfit).1 hv).2
  obtain ⟨fs, f, hf⟩ := hi.log.split_last
  obtain ⟨l0, f0, hl0, -, hf0, hn0, -, he0⟩ := hi.duringBatch_files (j := i) hb hf
  obtain ⟨l1, f1, hl1, hcfg, hf1, hn1, hab, he1⟩ := hi.duringBatch_files (j := j) hb hf
  obtain ⟨L, x, hx⟩ : ∃ L x, A ++ B = L ++ [x] :=
    ⟨_, _, (List.dropLast_concat_getLast hne).symm⟩
  have hmx : db.log.getMaxSeqNum = some x.seq := by
    have : db.getMaxSeqNum = some x.seq := by rw [hmax, hx]; simp
    exact this
  have hxm : x ∈ A ++ B := by rw [hx]; simp
  have hxp := hposn x hxm
  have hle : ∀ r ∈ A ++ B, r.seq ≤ x.seq := by
    intro r hr'
    rw [hx] at hr' hincr
    rcases List.mem_append.1 hr' with hr' | hr'
    · exact Nat.le_of_lt ((List.pairwise_append.1 hincr).2.2 r hr' x (by simp))
    · simp only [List.mem_singleton] at hr'; rw [hr']
  rw [hmx] at hl1 hab he1 hl0 he0
  simp only [Option.getD_some] at hl1 hab he1 hl0 he0
  have hupto : upto (B ++ number x.seq (b.take j)) x.seq = B := by
    rw [upto_append, upto_eq_self (fun r hr' => hle r (by simp [hr']))]
    have : upto (number x.seq (b.take j)) x.seq = [] := by
      unfold MemTable.upto
      rw [List.filter_eq_nil_iff]
      intro r hr'
      have := hab r hr'
      simp; omega
    rw [this, List.append_nil]
  -- the loaded numbers cover everything below the barrier
  have hload : ∀ g ∈ l1.files, ∀ r ∈ g.mem.bySeq, r.seq ≤ x.seq →
      r.seq ≤ ({ l0 with barrier := x.seq } : LogMgr K).loadedMax g := by
    intro g hg r hr' hrx
    rw [hf1] at hg
    rcases List.mem_append.1 hg with hg | hg
    · have hg0 : g ∈ l0.files := by rw [hf0]; exact List.mem_append_left _ hg
      have e : ({ l0 with barrier := x.seq } : LogMgr K).loadedMax g = g.mem.maxSeqNum := by
        unfold LogMgr.loadedMax
        have : ({ l0 with barrier := x.seq } : LogMgr K).file? g.num = some g := hl0.file?_mem hg0
        rw [this]
      rw [e]
      exact ((hl1.wf g (by rw [hf1]; exact List.mem_append_left _ hg)).bound r hr').2.1
    · simp only [List.mem_singleton] at hg
      subst hg
      have hfm : f0 ∈ l0.files := by rw [hf0]; simp
      have e : ({ l0 with barrier := x.seq } : LogMgr K).loadedMax g = f0.mem.maxSeqNum := by
        unfold LogMgr.loadedMax
        have : ({ l0 with barrier := x.seq } : LogMgr K).file? g.num = some f0 := by
          rw [hn1, ← hn0]; exact hl0.file?_mem hfm
        rw [this]
      rw [e]
      by_cases hz : f0.mem.maxSeqNum = NIL
      · rw [hz]; have := hxp.2; omega
      · have := (hl0.top fs f0 hf0).2 hz x (by
          rcases List.mem_append.1 hxm with h1 | h1
          · exact List.mem_append_left _ h1
          · exact List.mem_append_right _ (List.mem_append_left _ h1))
        omega
  have hget : LogMgr.getSplit (db.duringBatch b i).log (db.duringBatch b j).log k = db.log.get k := by
    rw [he0, he1]
    show LogMgr.getSplit ({ l0 with barrier := x.seq } : LogMgr K) ({ l1 with barrier := x.seq } : LogMgr K) k = _
    have e1 : ({ l1 with barrier := x.seq } : LogMgr K).getLastFlushedLog = l1.minNum := hl1.getLastFlushedLog_eq
    have e2 : ({ l1 with barrier := x.seq } : LogMgr K).fileRange l1.minNum l1.maxNum = l1.files := hl1.fileRange_all
    unfold LogMgr.getSplit
    simp only [e1, e2]
    rw [if_neg (by have := hl1.minNum_lt; have := hl1.numN; omega),
      getFromSplit_eq _ k x.seq (by omega) hxp.2 _ hl1.wf hload, ← hl1.pend, hupto, hi.log.get_eq]
    cases lastWrite B k <;> rfl
  unfold DB.getSplit DB.get
  rw [hget]
  have hchk : (db.duringBatch b j).check .read = db.check .read := by rw [he1]; rfl
  have htab : (db.duringBatch b j).tableGet k = db.tableGet k := by
    rw [he1]; unfold DB.tableGet; simp only [hcfg]
  rw [hchk, htab]
  rfl


namespace RaceEx

/-- Key 5 is written twice in one batch, then key 7. -/
def b : List (Rec Nat) :=
  [{ seq := NIL, type := .insertion, key := 5, val := [8] },
   { seq := NIL, type := .insertion, key := 5, val := [9] },
   { seq := NIL, type := .insertion, key := 7, val := [7] }]

theorem valid5 : Example.d5.ValidBatch b := ⟨by decide, Or.inl (by decide)⟩
theorem fits5 : Example.d5.Fits b.length := ⟨by decide, by decide⟩
end RaceEx

/-- The newest number is loaded after one record of the batch, the barrier after two. -/
example (k : Nat) : DB.getSplit (Example.d5.duringBatch RaceEx.b 1) (Example.d5.duringBatch RaceEx.b 2) k =
    Example.d5.get k :=
  C12_two_moments_partial Example.r5 (by decide) RaceEx.fits5 RaceEx.valid5 1 2 k

/-- The code breaks C12 for a reader that loads the newest number while the batch runs and the
    barrier after it: it returns a value that is neither the one before the batch nor the one after
    (src/log_mgr.cc:912-923). -/
theorem C12_reader_race_violation :
    ∃ (db db' : DB Nat (Flat Nat)) (h b : List (Rec Nat)), Reach db h ∧ h ≠ [] ∧ db.ValidBatch b ∧
      db.setRecordBatch b = (.ok, db') ∧
      db.get 5 = (.keyNotFound, none) ∧ db'.get 5 = (.ok, some [9]) ∧
      DB.getSplit (db.duringBatch b 1) db' 5 = (.ok, some [8]) :=
  ⟨Example.d5, (Example.d5.setRecordBatch RaceEx.b).2, _, RaceEx.b, Example.r5, by decide, RaceEx.valid5,
    Prod.ext (by decide) rfl, by decide, by decide, by decide⟩

namespace RaceEx
open Iter IterEx
/-- Two keys, one of them in the table section. -/
def s := (start [.put 1 10, .sync, .flush, .put 3 30]).get (by decide +kernel)
theorem r : Reach s.1 s.2 := Cmd.start_reach plain (Option.some_get _).symm
def bi : List (Rec Nat) :=
  [{ seq := NIL, type := .insertion, key := 5, val := [8] },
   { seq := NIL, type := .insertion, key := 6, val := [9] }]
end RaceEx

open Iter in
/-- The same for an iterator, which keeps what it has loaded: opened so, it shows one record of the
    batch and not the other, even long after the batch (src/log_iterator.cc:90-117). -/
theorem C12_iterator_race_violation :
    ∃ (db db' : DB Nat (Lsm IterEx.c 1 (by decide))) (h b : List (Rec Nat)) (it : KeyIt Nat), Reach db h ∧ h ≠ [] ∧
      db.ValidBatch b ∧ db.setRecordBatch b = (.ok, db') ∧
      DB.keyItrSplit (db.duringBatch b 1) db' none none = (.ok, some it) ∧
      (keyAll .fwd 10 it).map (·.key) = [1, 3, 5] ∧
      db'.get 5 = (.ok, some [8]) ∧ db'.get 6 = (.ok, some [9]) :=
  ⟨RaceEx.s.1, (RaceEx.s.1.setRecordBatch RaceEx.bi).2, RaceEx.s.2, RaceEx.bi,
    keyInitSplit (RaceEx.s.1.duringBatch RaceEx.bi 1).log (RaceEx.s.1.setRecordBatch RaceEx.bi).2.log
      ((RaceEx.s.1.setRecordBatch RaceEx.bi).2.table : TMgr Nat) none none,
    RaceEx.r, by decide +kernel, ⟨by decide, Or.inl (by decide +kernel)⟩, Prod.ext (by decide +kernel) rfl,
    by unfold DB.keyItrSplit; rw [if_neg (by decide +kernel)], by decide +kernel, by decide +kernel, by decide +kernel⟩

/-! ### Global batches -/

namespace GlobalEx
open GRun
/-- Two DBs with a history, and a batch with two records for each. -/
def dbs : Nat → DB Nat (Flat Nat) := fun i => if i = 0 then Example.d5 else Example.d2
def hs : Nat → List (Rec Nat) := fun i => if i = 0 then Example.h6.take 3 else Example.h6.take 2
def bs : Nat → List (Rec Nat) := fun i => if i = 0 then RaceEx.b else Example.b2

theorem lt2 {P : Nat → Prop} (h0 : P 0) (h1 : P 1) : ∀ i, i < 2 → P i := by
  intro i hi
  match i, hi with
  | 0, _ => exact h0
  | 1, _ => exact h1

theorem reach : ∀ i, i < 2 → Reach (dbs i) (hs i) := lt2 Example.r5 Example.r2
theorem fits : ∀ i, i < 2 → (dbs i).Fits (bs i).length := lt2 ⟨by decide, by decide⟩ ⟨by decide, by decide⟩
theorem opn : ∀ i, i < 2 → (dbs i).check .write = .ok := lt2 (by decide) (by decide)
theorem valid : ∀ i, i < 2 → (dbs i).ValidBatch (bs i) := lt2 RaceEx.valid5 ⟨by decide, Or.inl (by decide)⟩
theorem ne : ∀ i, i < 2 → hs i ≠ [] := lt2 (by decide) (by decide)

example (t : Nat) :
    (∀ i, i < 2 → SameReads ((after 2 (start 2 dbs bs) t).view i) (dbs i)) ∨
      (∀ u i, i < 2 → SameReads ((after 2 (start 2 dbs bs) (t + u)).view i) ((dbs i).setRecordBatch (bs i)).2) :=
  (C14_global_batch_atomic_partial 2 dbs hs bs reach ne fits opn valid).1 t

/-- Both cases of the theorem occur: after 13 steps all records are in the log files and nothing is
    visible, after 14 steps everything is. -/
example : ((after 2 (start 2 dbs bs) 13).view 0).get 5 = (.keyNotFound, none) ∧
    ((after 2 (start 2 dbs bs) 13).view 1).get 5 = (.ok, some [1]) ∧
    ((after 2 (start 2 dbs bs) 16).view 0).get 5 = (.ok, some [9]) ∧
    ((after 2 (start 2 dbs bs) 16).view 1).get 5 = (.ok, some [8]) := by decide +kernel

/-- A batch whose second part is invalid: its numbers are not above the newest one. -/
def bad : Nat → List (Rec Nat) := fun i =>
  if i = 0 then RaceEx.b else [{ seq := 1, type := .insertion, key := 5, val := [8] }]

example : ∃ T, ∀ t, T ≤ t → (after 2 (start 2 dbs bad) t).status = .invalidSeqnum ∧
    (after 2 (start 2 dbs bad) t).code = [] ∧ ∀ i, i < 2 → (after 2 (start 2 dbs bad) t).view i = dbs i :=
  (C14_invalid_changes_nothing 2 dbs hs bad reach (lt2 ⟨by decide, by decide⟩ ⟨by decide, by decide⟩) opn
    (lt2 (by decide) (by decide)) (lt2 (by decide) (by decide))
    ⟨1, by decide, fun h => by
      rcases h.2 with h1 | ⟨-, -, h2⟩
      · exact absurd (h1 _ (List.mem_singleton_self _)) (by decide)
      · exact absurd (h2 _ (List.mem_singleton_self _)) (by decide)⟩).2
end GlobalEx

open GRun in
/-- The code breaks C14 on an empty DB: its barrier is 0, which means "no barrier", and a reader sees
    its part of the batch while the other DB still shows the state before the batch. -/
theorem C14_empty_db_violation :
    ∃ (dbs : Nat → DB Nat (Flat Nat)) (h b : Nat → List (Rec Nat)) (t : Nat),
      (∀ i, i < 2 → Reach (dbs i) (h i)) ∧ (∀ i, i < 2 → (dbs i).ValidBatch (b i)) ∧
      ((after 2 (start 2 dbs b) t).view 0).get 5 = (.ok, some [8]) ∧ ((dbs 0).get 5) = (.keyNotFound, none) ∧
      ((after 2 (start 2 dbs b) t).view 1).get 5 = (.ok, some [1]) ∧
      (((dbs 1).setRecordBatch (b 1)).2).get 5 = (.ok, some [8]) :=
  ⟨fun i => if i = 0 then Example.d0 else Example.d2, fun i => if i = 0 then [] else Example.h6.take 2,
    fun _ => Example.b2, 7, GlobalEx.lt2 Example.r0 Example.r2,
    GlobalEx.lt2 ⟨by decide, Or.inl (by decide)⟩ ⟨by decide, Or.inl (by decide)⟩,
    by decide +kernel, by decide +kernel, by decide +kernel, by decide +kernel⟩

open GRun in
/-- The code breaks C14 when a part of the batch has no records: `checkBatchValidity` reads the first
    record of an empty list (src/log_mgr.cc:771). -/
theorem C14_empty_part_violation :
    ∃ (dbs : Nat → DB Nat (Flat Nat)) (h b : Nat → List (Rec Nat)) (t : Nat),
      (∀ i, i < 2 → Reach (dbs i) (h i)) ∧ (dbs 0).ValidBatch (b 0) ∧ b 1 = [] ∧
      (after 2 (start 2 dbs b) t).status = .undefinedBehaviour :=
  ⟨GlobalEx.dbs, GlobalEx.hs, fun i => if i = 0 then RaceEx.b else [], 4, GlobalEx.reach, RaceEx.valid5, rfl,
    by decide +kernel⟩

open GRun in
/-- A reader that loads the newest number while the batch runs and the barrier after it sees a part
    of the batch, as in `C12_reader_race_violation`. -/
theorem C14_reader_race_violation :
    ∃ (dbs : Nat → DB Nat (Flat Nat)) (h b : Nat → List (Rec Nat)) (t u : Nat),
      (∀ i, i < 2 → Reach (dbs i) (h i)) ∧ (∀ i, i < 2 → h i ≠ []) ∧ (∀ i, i < 2 → (dbs i).ValidBatch (b i)) ∧ t < u ∧
      (dbs 0).get 5 = (.keyNotFound, none) ∧ (((dbs 0).setRecordBatch (b 0)).2).get 5 = (.ok, some [9]) ∧
      DB.getSplit ((after 2 (start 2 dbs b) t).view 0) ((after 2 (start 2 dbs b) u).view 0) 5 = (.ok, some [8]) :=
  ⟨GlobalEx.dbs, GlobalEx.hs, GlobalEx.bs, 5, 40, GlobalEx.reach, GlobalEx.ne, GlobalEx.valid, by decide,
    by decide +kernel, by decide +kernel, by decide +kernel⟩

end Jungle
