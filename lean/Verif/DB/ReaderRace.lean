/-
  A reader that is interrupted between its two loads: `LogMgr::get` and the iterators first load the
  newest number of a log file and then the barrier ("fetching `visibleSeqBarrier` should be done
  AFTER fetching max seq number", src/log_mgr.cc:912-923, src/log_iterator.cc:90-117).
-/
import Verif.DB.GlobalBatch
import Verif.Iter.Handle
import Verif.Props.Log

namespace Jungle
open Spec MemTable
set_option linter.unusedSectionVars false
variable {K : Type} [LinearOrder K] {S : TableSys K}

/-- The newest number of file `f` as loaded in state `old`. -/
def LogMgr.loadedMax (old : LogMgr K) (f : LogFile K) : Nat :=
  match old.file? f.num with
  | some g => g.mem.maxSeqNum
  | none => f.mem.maxSeqNum

/-- The search loop of `LogMgr::get` (src/log_mgr.cc:905-934): the newest numbers are loaded in state
    `old`; the barrier is loaded and the file is searched later. -/
def LogMgr.getFromSplit (old : LogMgr K) (barrier : Nat) (key : K) : List (LogFile K) → Option (Rec K)
  | [] => none
  | f :: fs =>
    let m := old.loadedMax f
    let c := if barrier ≠ 0 then min m barrier else m
    match f.mem.getRecordByKey c key false true with
    | (.ok, some r) => some r
    | _ => getFromSplit old barrier key fs

/-- `LogMgr::get` (src/log_mgr.cc:859-938) with tables. -/
def LogMgr.getSplit (old l : LogMgr K) (key : K) : Status × Option (Rec K) :=
  if l.getLastFlushedLog = NIL ∨ l.maxNum = NIL then (.notInitialized, none)
  else match old.getFromSplit l.barrier key (l.fileRange l.getLastFlushedLog l.maxNum).reverse with
    | some r => (.ok, some r)
    | none => (.keyNotFound, none)

/-- `DB::get` (src/jungle.cc:635-672) that loads the newest numbers in state `old` and does the rest
    in state `db`. -/
def DB.getSplit (old db : DB K S) (k : K) : Status × Option Bytes :=
  if db.check .read ≠ .ok then (db.check .read, none)
  else match LogMgr.getSplit old.log db.log k with
  | (.ok, some r) => if r.isIns then (.ok, some r.val) else (.keyNotFound, none)
  | _ => match db.tableGet k with
    | some r => if r.isIns then (.ok, some r.val) else (.keyNotFound, none)
    | none => (.keyNotFound, none)

namespace Iter

/-- The numbers an iterator may show (src/log_iterator.cc:92-120), when the range is loaded in state
    `old` and the barrier in state `l`. -/
def itrRangeSplit (old l : LogMgr K) : Option (Nat × Nat) :=
  match availSeqRange old with
  | none => none
  | some (mn, mx) =>
    let mx := if l.barrier ≠ 0 ∧ l.barrier < mx then l.barrier else mx
    if mx < mn then none else some (mn, mx)

/-- `LogMgr::Iterator::init` (src/log_iterator.cc:62-223) with the two loads at different moments. -/
def logItrSplit (old l : LogMgr K) (lo hi : Option K) : LogIt K :=
  match itrRangeSplit old l with
  | none => { win := [], cur := none }
  | some (mn, mx) => openIdx keyPar (Leaf.ops .memKey) ((itrFiles l mn mx).map (logLeaf lo hi mn mx))

/-- `Iterator::init` (src/iterator.cc:29-99) with the two loads at different moments. -/
def keyInitSplit [OrderBot K] (old l : LogMgr K) (t : TMgr K) (lo hi : Option K) : KeyIt K :=
  skipDel .fwd (openIdx keyPar (sumOps logOps tabOps) [.inl (logItrSplit old l lo hi), .inr (tabItr t lo hi)])

theorem itrRangeSplit_self (l : LogMgr K) : itrRangeSplit l l = itrRange l NIL NIL := by
  unfold itrRangeSplit itrRange
  have : valid NIL = false := by decide
  simp only [this, Bool.false_and, Bool.false_eq_true, if_false]
  cases availSeqRange l <;> rfl

theorem keyInitSplit_self [OrderBot K] (l : LogMgr K) (t : TMgr K) (lo hi : Option K) :
    keyInitSplit l l t lo hi = keyInit l t lo hi := by
  unfold keyInitSplit keyInit logItrSplit logItr
  rw [itrRangeSplit_self]
  cases itrRange l NIL NIL <;> rfl

end Iter

/-- `Iterator::init` on a handle, interrupted between the two loads. -/
def DB.keyItrSplit [OrderBot K] {c : TCfg K} {parts : Nat} {hp : 0 < parts} (old db : DB K (Lsm c parts hp)) (lo hi : Option K) :
    Status × Option (Iter.KeyIt K) :=
  if db.check .read ≠ .ok then (db.check .read, none)
  else (.ok, some (Iter.keyInitSplit old.log db.log (db.table : TMgr K) lo hi))

theorem DB.keyItrSplit_self [OrderBot K] {c : TCfg K} {parts : Nat} {hp : 0 < parts} (db : DB K (Lsm c parts hp)) (lo hi : Option K) :
    db.keyItrSplit db lo hi = db.keyItr lo hi := by
  have e := Iter.keyInitSplit_self db.log (db.table : TMgr K) lo hi
  unfold DB.keyItrSplit DB.keyItr
  split
  · rfl
  · exact congrArg (fun x => (Status.ok, some x)) e

theorem LogMgr.loadedMax_self {l : LogMgr K} {A B} (h : LogInv l A B) {f} (hf : f ∈ l.files) : l.loadedMax f = f.mem.maxSeqNum := by
  unfold LogMgr.loadedMax
  rw [h.file?_mem hf]

theorem getFromSplit_eq (old : LogMgr K) (k : K) (b : Nat) (hb : b ≠ 0) (hbN : b < NIL) (fs : List (LogFile K))
    (h : ∀ f ∈ fs, f.mem.WF) (ho : ∀ f ∈ fs, ∀ r ∈ f.mem.bySeq, r.seq ≤ b → r.seq ≤ old.loadedMax f) :
    old.getFromSplit b k fs.reverse = lastWrite (upto (fs.flatMap LogFile.pending) b) k := by
  suffices H : ∀ gs : List (LogFile K), (∀ f ∈ gs, f.mem.WF) →
      (∀ f ∈ gs, ∀ r ∈ f.mem.bySeq, r.seq ≤ b → r.seq ≤ old.loadedMax f) →
      old.getFromSplit b k gs =
        lastWrite (upto (gs.reverse.flatMap LogFile.pending) b) k by
    have := H fs.reverse (fun f hf => h f (List.mem_reverse.1 hf)) (fun f hf => ho f (List.mem_reverse.1 hf))
    rwa [List.reverse_reverse] at this
  intro gs hg ho
  induction gs with
  | nil => rfl
  | cons f gs ih =>
    have ih := ih (fun g hg' => hg g (List.mem_cons_of_mem _ hg')) (fun g hg' => ho g (List.mem_cons_of_mem _ hg'))
    simp only [LogMgr.getFromSplit]
    rw [List.reverse_cons, List.flatMap_append, upto_append, lastWrite_append]
    simp only [List.flatMap_cons, List.flatMap_nil, List.append_nil]
    have hwf := hg f List.mem_cons_self
    rw [if_pos hb, MemTable.get_equal hwf.look, pending_upto, lastWrite_above (Increasing.upto hwf.sorted b), ← ih]
    have hc : (if min (old.loadedMax f) b = NIL then f.mem.bySeq
        else upto f.mem.bySeq (min (old.loadedMax f) b)) = upto f.mem.bySeq b := by
      rw [if_neg (by omega)]
      unfold MemTable.upto
      apply List.filter_congr
      intro r hr
      have := ho f List.mem_cons_self r hr
      by_cases hrb : r.seq ≤ b
      · have := this hrb
        simp; omega
      · simp; omega
    rw [hc]
    cases lastWrite (upto f.mem.bySeq b) k with
    | none => simp
    | some r =>
      by_cases hc : f.mem.flushedSeqNum ≠ NIL ∧ r.seq ≤ f.mem.flushedSeqNum
      · simp only [if_pos hc]; simp [hc.1, hc.2]
      · have : ¬ (¬ f.mem.flushedSeqNum = NIL ∧ r.seq ≤ f.mem.flushedSeqNum) := hc
        simp only [if_neg hc]; simp [this]

/-- Records stored in the newest file leave the other files alone. -/
theorem PutSteps.front {l l' : LogMgr K} (hp : PutSteps l l') {fs f} (hf : l.files = fs ++ [f]) :
    ∃ f', l'.files = fs ++ [f'] ∧ f'.num = f.num := by
  induction hp generalizing f with
  | refl => exact ⟨f, hf, rfl⟩
  | step h1 h2 _ _ ih =>
    cases h1 with
    | @same fs' f1 m' r s e1 e2 e3 e4 e5 =>
      rw [hf] at e1
      obtain ⟨rfl, e6⟩ := List.append_inj' e1 rfl
      cases e6
      obtain ⟨f', a1, a2⟩ := ih (f := { f with mem := m' }) rfl
      exact ⟨f', a1, a2⟩
    | new e1 e2 e3 e4 e5 =>
      exfalso
      simp only [] at h2
      omega

/-- The log `j` records into a batch. -/
theorem DBInv.duringBatch_files {db : DB K S} {A B} (h : DBInv db A B) {b : List (Rec K)} {j : Nat}
    (hb : db.log.batchOk b) {fs f} (hf : db.log.files = fs ++ [f]) :
    ∃ l' f', LogInv l' A (B ++ number (db.log.getMaxSeqNum.getD 0) (b.take j)) ∧
      l'.cfg = db.log.cfg ∧ l'.files = fs ++ [f'] ∧ f'.num = f.num ∧
      (∀ r ∈ number (db.log.getMaxSeqNum.getD 0) (b.take j), db.log.getMaxSeqNum.getD 0 < r.seq) ∧
      db.duringBatch b j = { db with log := { l' with barrier := db.log.getMaxSeqNum.getD 0 } } := by
  have hb' : db.log.batchOk (b.take j) := by
    rcases hb with ⟨h1, h2⟩ | ⟨h1, h2⟩
    · refine Or.inl ⟨fun r hr => h1 r (List.mem_of_mem_take hr), ?_⟩
      have : (b.take j).length ≤ b.length := by rw [List.length_take]; omega
      omega
    · refine Or.inr ⟨?_, fun r hr => h2 r (List.mem_of_mem_take hr)⟩
      refine List.Pairwise.sublist ?_ h1
      exact List.Sublist.cons_cons _ ((List.take_sublist j b).map _)
  obtain ⟨l', hl, ho⟩ := h.log.setMultiInternal (b.take j) hb'
  obtain ⟨f', hf', hn⟩ := ho.steps.front hf
  refine ⟨l', f', ho.inv, ho.cfg, hf', hn, ?_, ?_⟩
  · intro r hr
    exact (List.pairwise_cons.1 ho.inc).1 _ (List.mem_map_of_mem hr)
  · unfold DB.duringBatch
    rw [setMultiInternal_barrier, hl]

theorem LogMgr.getFromSplit_self {l : LogMgr K} {A B} (h : LogInv l A B) (b : Nat) (k : K) (fs : List (LogFile K))
    (hfs : ∀ f ∈ fs, f ∈ l.files) : l.getFromSplit b k fs = LogMgr.getFrom b NIL true false k fs := by
  induction fs with
  | nil => rfl
  | cons f fs ih =>
    have e := LogMgr.loadedMax_self h (hfs f List.mem_cons_self)
    have ih := ih (fun g hg => hfs g (List.mem_cons_of_mem _ hg))
    simp only [LogMgr.getFromSplit, LogMgr.getFrom, e, ih, if_true]
    generalize f.mem.getRecordByKey _ _ _ _ = x
    rcases x with ⟨st, _ | r⟩ <;> cases st <;> rfl

/-- Without an interruption this is the ordinary `get`. -/
theorem DB.getSplit_self {db : DB K S} {h : List (Rec K)} (hr : Reach db h) (k : K) : db.getSplit db k = db.get k := by
  obtain ⟨A, B, rfl, hi⟩ := hr.inv
  have e : LogMgr.getSplit db.log db.log k = db.log.get k := by
    have e1 := hi.log.getLastFlushedLog_eq
    have e2 := hi.log.fileRange_all
    have e3 := LogMgr.getFromSplit_self hi.log db.log.barrier k db.log.files.reverse
      (fun f hf => List.mem_reverse.1 hf)
    have e4 := hi.mode
    unfold LogMgr.getSplit LogMgr.get
    simp only [e1, e2, e3, e4, Bool.false_eq_true, if_false]
    split
    · rfl
    · cases LogMgr.getFrom db.log.barrier NIL true false k db.log.files.reverse <;> rfl
  unfold DB.getSplit DB.get
  rw [e]
  rfl

end Jungle
