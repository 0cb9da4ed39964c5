/-
  The invariant of a handle and its preservation by every call.
-/
import Verif.DB.Calls
import Verif.Log.FlushLemmas2

set_option linter.unusedSectionVars false

namespace Jungle
open Spec
variable {K : Type} [LinearOrder K] {S : TableSys K}

/-- `A`: accepted records the tables answer for; `B`: accepted records still in the log. -/
structure DBInv (db : DB K S) (A B : List (Rec K)) : Prop where
  log : LogInv db.log A B
  table : S.Inv db.table
  mode : db.log.cfg.logSectionOnly = false
  old : ∀ k, lastWrite B k = none → vis (S.get db.table k) = valueOf A k
  max0 : A ++ B = [] → db.log.getMaxSeqNum = none
  maxS : A ++ B ≠ [] → db.log.getMaxSeqNum = ((A ++ B).getLast?).map (·.seq)
  pos : ∀ r ∈ A ++ B, 0 < r.seq ∧ r.seq < NIL

theorem LogInv.init' (c : Cfg) (h1 : c.readOnly = false) (h2 : c.allowOverwrite = false) (h3 : 0 < c.maxEntries) :
    LogInv (LogMgr.init c : LogMgr K) [] [] := by
  refine ⟨h1, h2, rfl, by simp [LogMgr.init], ⟨0, rfl, rfl⟩, by show 0 < NIL; decide, ?_, ?_,
    h3, ?_, ?_, List.pairwise_singleton _ _, Or.inl rfl, Or.inl rfl, ?_,
    (fun _ _ _ _ hr => by cases hr), ?_, List.Pairwise.nil, ?_⟩
  · intro f hf; simp only [LogMgr.init, List.mem_singleton] at hf; subst hf; exact MemTable.WF.init _
  · intro f hf; simp only [LogMgr.init, List.mem_singleton] at hf; subst hf
    exact ⟨by simp [LogFile.create, MemTable.init], fun h => absurd rfl h, fun _ => Nat.le_refl _⟩
  · intro f hf; simp only [LogMgr.init, List.mem_singleton] at hf; subst hf; intro _; rfl
  · intro f hf; simp only [LogMgr.init, List.mem_singleton] at hf; subst hf; intro _; exact Nat.zero_le _
  · intro h; exact absurd rfl h
  · rfl
  · intro fs f hf
    have hl : fs = [] := by
      have := congrArg List.length hf
      simp [LogMgr.init] at this; exact this
    subst hl
    simp only [LogMgr.init, List.nil_append, List.cons.injEq, and_true] at hf
    subst hf
    exact ⟨fun _ => ⟨rfl, rfl⟩, fun h => absurd rfl h⟩

theorem LogInv.init (c : Cfg) (hc : c.Plain) : LogInv (LogMgr.init c : LogMgr K) [] [] :=
  LogInv.init' c hc.rw hc.noOverwrite hc.entries

theorem DBInv.init (c : Cfg) (hc : c.Plain) : DBInv (DB.init S c) [] [] := by
  refine ⟨LogInv.init c hc, S.inv_empty, hc.tables, ?_, fun _ => rfl, fun h => absurd rfl h, by simp⟩
  intro k _
  show vis (S.get S.empty k) = _
  rw [S.get_empty]; rfl

/-- A refused single write leaves the log section as it was. -/
theorem LogInv.setSN_refused {l : LogMgr K} {A B} (h : LogInv l A B) (r : Rec K) (se : Bool)
    {st l'} (hs : l.setSN r se = (st, l')) (hst : st ≠ .ok) : l' = l := by
  obtain ⟨fs, f, hf⟩ := h.split_last
  have hff : f ∈ l.files := by rw [hf]; simp
  have hfi : l.file? l.maxNum = some f := by
    rw [← h.last_num hf]; exact h.file?_mem hff
  unfold LogMgr.setSN at hs
  rw [if_neg (by simp [h.rw])] at hs
  by_cases hr0 : r.seq = 0
  · rw [if_pos hr0] at hs; cases hs; rfl
  rw [if_neg hr0, if_neg (Nat.ne_of_lt h.numN)] at hs
  simp only [h.noOv, Bool.and_false, Bool.false_eq_true, if_false, Option.orElse, hfi,
    Bool.false_and, Bool.not_false, Bool.and_true, LogFile.setSN_eq h.noOv] at hs
  cases hv : f.isValidToWrite l.cfg se
  · rw [hv] at hs
    simp only [Bool.not_false, if_true, LogMgr.addNewLogFile, LogFile.create] at hs
    have hok : (MemTable.putNewRecord l.cfg (MemTable.init (inc64 f.mem.maxSeqNum)) r).1 = .ok := by
      unfold MemTable.putNewRecord MemTable.assignSeqNum
      by_cases hn : (MemTable.localRec r).seq = NIL <;> simp [hn, MemTable.init]
    simp only [hok, ne_eq, not_true_eq_false, if_false] at hs
    split at hs <;> (cases hs; exact absurd rfl hst)
  · rw [hv] at hs
    simp only [Bool.not_true, Bool.false_eq_true, if_false] at hs
    by_cases hok : (f.mem.putNewRecord l.cfg r).1 = .ok
    · simp only [hok, ne_eq, not_true_eq_false, if_false] at hs
      split at hs <;> (cases hs; exact absurd rfl hst)
    · rw [if_pos hok] at hs
      cases hs
      have hm : (f.mem.putNewRecord l.cfg r).2 = f.mem := by
        unfold MemTable.putNewRecord at hok ⊢
        simp only at hok ⊢
        split
        · next hh => rw [hh] at hok; exact absurd rfl hok
        · rfl
      rw [hm]
      rw [h.setFile_last (f' := { f with mem := f.mem }) hf rfl]
      have : ({ f with mem := f.mem } : LogFile K) = f := rfl
      rw [this, ← hf]

theorem number_one (m : Nat) (r : Rec K) :
    number m [r] = [stamp r (if r.seq = NIL then m + 1 else r.seq)] := rfl

/-- Extending the history by accepted records. -/
theorem DBInv.extend {db : DB K S} {A B : List (Rec K)} (h : DBInv db A B) {l' : LogMgr K} {N}
    (hl : LogInv l' A (B ++ N)) (hc : l'.cfg = db.log.cfg) (hne : N ≠ [])
    (hmax : l'.getMaxSeqNum = (N.getLast?).map (·.seq)) (hpos : ∀ r ∈ N, 0 < r.seq ∧ r.seq < NIL) :
    DBInv { db with log := l' } A (B ++ N) := by
  refine ⟨hl, h.table, by rw [hc]; exact h.mode, ?_, ?_, ?_, ?_⟩
  · intro k hk
    rw [lastWrite_append] at hk
    apply h.old
    cases hN : lastWrite N k with
    | none => rwa [hN] at hk
    | some r => rw [hN] at hk; cases hk
  · intro he; simp at he; exact absurd he.2.2 hne
  · intro _
    rw [hmax, ← List.append_assoc, List.getLast?_append]
    cases hg : N.getLast? with
    | none => exact absurd (List.getLast?_eq_none_iff.1 hg) hne
    | some x => rfl
  · intro r hr
    rw [← List.append_assoc] at hr
    rcases List.mem_append.1 hr with hr | hr
    · exact h.pos r hr
    · exact hpos r hr

/-- An accepted single write. -/
theorem DBInv.set {db : DB K S} {A B} (h : DBInv db A B) (r : Rec K) (se : Bool)
    (hfit : db.Fits 1) (hseq : db.FreshSeq r.seq) (h0 : r.seq ≠ 0)
    (hse : db.getMaxSeqNum = none → se = false) (hck : db.check .write = .ok) :
    ∃ db', db.setRecord r se = (.ok, db') ∧
      DBInv db' A (B ++ number (db.getMaxSeqNum.getD 0) [r]) ∧
      db'.log.cfg = db.log.cfg ∧ db' = { db with log := db'.log } ∧ PutStep db.log db'.log := by
  have hok : db.log.seqOk r.seq := by
    rcases hseq with hn | ⟨hn, hm⟩
    · left; refine ⟨hn, ?_⟩; rw [h.log.nextSeq_eq]; exact hfit.1
    · right; exact ⟨by omega, hn, hm⟩
  obtain ⟨s, l', hs, ho⟩ := h.log.setSN r se hok hfit.2 hse
  have hnum : number (db.getMaxSeqNum.getD 0) [r] = [stamp r s] := by
    rw [number_one]
    by_cases hn : r.seq = NIL
    · rw [if_pos hn, ho.number hn]; rfl
    · rw [if_neg hn, ho.explicit hn]
  unfold DB.setRecord
  rw [hck]
  simp only [ne_eq, not_true_eq_false, if_false, hs]
  refine ⟨_, rfl, ?_, ho.cfg, rfl, ho.step⟩
  rw [hnum]
  have hinv := ho.inv
  rw [accepted_eq_stamp] at hinv
  refine h.extend hinv ho.cfg (by simp) (by rw [ho.max]; rfl) ?_
  intro x hx; simp only [List.mem_singleton] at hx; subst hx
  exact ⟨ho.pos, ho.lt⟩

theorem number_ne_nil (m : Nat) {b : List (Rec K)} (hb : b ≠ []) : number m b ≠ [] := by
  cases b with
  | nil => exact absurd rfl hb
  | cons r rs => simp [number]

/-- A batch: accepted, or refused without effect. -/
theorem DBInv.batch {db : DB K S} {A B} (h : DBInv db A B) (b : List (Rec K))
    (hfit : db.Fits b.length) (hN : ∀ r ∈ b, r.seq ≤ NIL) (hck : db.check .write = .ok) :
    (b ≠ [] ∧ db.log.batchOk b ∧ ∃ db', db.setRecordBatch b = (.ok, db') ∧
      DBInv db' A (B ++ number (db.getMaxSeqNum.getD 0) b) ∧
      db' = { db with log := db'.log } ∧ PutSteps db.log db'.log) ∨
    ((b = [] ∨ ¬ db.log.batchOk b) ∧
      db.setRecordBatch b = (if b = [] then .emptyBatch else .invalidSeqnum, db)) := by
  have hroom : db.log.nextSeq + b.length ≤ NIL := by
    rw [h.log.nextSeq_eq]; have := hfit.1; unfold DB.getMaxSeqNum at this; omega
  rcases h.log.setMulti b hN hroom with ⟨hne, hb, l', hs, ho⟩ | ⟨hb, hs⟩
  · left
    refine ⟨hne, hb, ?_⟩
    unfold DB.setRecordBatch
    rw [hck]
    simp only [ne_eq, not_true_eq_false, if_false, hs]
    refine ⟨_, rfl, ?_, rfl, ho.steps⟩
    refine h.extend ho.inv ho.cfg (number_ne_nil _ hne) (ho.max hne) ?_
    intro r hr
    refine ⟨?_, ho.lt r hr⟩
    have := (List.pairwise_cons.1 ho.inc).1 r.seq (List.mem_map_of_mem hr)
    omega
  · right
    refine ⟨hb, ?_⟩
    unfold DB.setRecordBatch
    rw [hck]
    simp only [ne_eq, not_true_eq_false, if_false, hs]

theorem DBInv.ofLog {db : DB K S} {A B} (h : DBInv db A B) {l' : LogMgr K}
    (hl : LogInv l' A B) (hc : l'.cfg = db.log.cfg) (hm : l'.getMaxSeqNum = db.log.getMaxSeqNum) :
    DBInv { db with log := l' } A B :=
  ⟨hl, h.table, by rw [hc]; exact h.mode, h.old, fun e => by rw [hm]; exact h.max0 e,
    fun e => by rw [hm]; exact h.maxS e, h.pos⟩

theorem DBInv.sync {db : DB K S} {A B} (h : DBInv db A B) {st db'} (hs : db.sync = (st, db')) :
    DBInv db' A B ∧ (st = .ok ∨ (st = db.check .flush ∧ db' = db)) := by
  unfold DB.sync at hs
  split at hs
  · cases hs; exact ⟨h, Or.inr ⟨rfl, rfl⟩⟩
  · obtain ⟨l', e, hl, hc, -, -, hm⟩ := h.log.sync
    rw [e] at hs; cases hs
    exact ⟨h.ofLog hl hc hm, Or.inl rfl⟩

theorem DBInv.checkpoint {db : DB K S} {A B} (h : DBInv db A B) {st db' c}
    (hs : db.checkpoint = (st, db', c)) :
    DBInv db' A B ∧ st = .ok ∧ c = db.getMaxSeqNum := by
  unfold DB.checkpoint at hs
  obtain ⟨hl1, h2, hc1, -, -, hm1⟩ := h.log.checkpoint
  obtain ⟨l', e, hl, hc, -, -, hm⟩ := hl1.sync
  simp only [e, h2] at hs; cases hs
  exact ⟨h.ofLog hl (hc.trans hc1) (hm.trans hm1), rfl, rfl⟩

theorem DBInv.flushOk {db : DB K S} {A B} (h : DBInv db A B) {o : LogMgr.FlushOpts} {n : Nat}
    (hn : db.FlushSeq o n) : db.log.flushOk o n := by
  rcases hn with hn | ⟨r, hr, hb⟩ | hn
  · exact Or.inl hn
  · right; left
    obtain ⟨-, hrB, hrn⟩ := h.log.getSN_sound hr
    have hrB' := hrB
    rw [h.log.pend] at hrB
    obtain ⟨f, hf, hrf⟩ := List.mem_flatMap.1 hrB
    refine ⟨f, hf, r, pending_sub hrf, hrn, ?_⟩
    rcases hb with hb | ⟨m, hm, hle⟩
    · exact Or.inl hb
    · right
      unfold DB.getLastSyncedSeqNum LogMgr.getLastSyncedSeqNum at hm
      cases hg : db.log.file? db.log.lastSynced with
      | none => rw [hg] at hm; cases hm
      | some g =>
        rw [hg] at hm
        simp only at hm
        split at hm
        · cases hm
        · next hsy =>
          cases hm
          have hg1 : g ∈ db.log.files := List.mem_of_find?_eq_some hg
          have hg2 : g.num = db.log.lastSynced := by simpa using List.find?_some hg
          have hr' := h.log.num_range hg1
          have := h.log.numN
          refine ⟨by omega, ?_⟩
          by_contra hlt
          have hb := h.log.max_le hg1 hf (by omega)
          have hwf := (h.log.wf g hg1)
          have := hb.recs hb.ne r (pending_sub hrf)
          rcases hwf.synced with h1 | h1
          · exact hsy h1
          · omega
  · exact Or.inr (Or.inr hn)

theorem DBInv.flush {db : DB K S} {A B} (h : DBInv db A B) {o : LogMgr.FlushOpts} {n : Nat}
    (hp : o.purgeOnly = false) (hn : db.FlushSeq o n) {st db'} (hs : db.flushLogs o n = (st, db')) :
    st ≠ .undefinedBehaviour ∧ ∃ D B', B = D ++ B' ∧ DBInv db' (A ++ D) B' ∧
      db'.getMaxSeqNum = db.getMaxSeqNum ∧ (st ≠ .ok → db' = db) ∧
      ∃ R cps, Increasing R ∧ (∀ r ∈ R, r ∈ B) ∧
        db'.table = (if R = [] then db.table else S.setBatch db.table R cps) ∧
        ∀ k, lastWrite B' k = none → lastWrite R k = lastWrite D k := by
  unfold DB.flushLogs at hs
  split at hs
  · cases hs
    refine ⟨?_, [], B, rfl, by simpa using h, rfl, fun _ => rfl, [], [], List.Pairwise.nil, by simp,
      rfl, fun _ _ => rfl⟩
    unfold DB.check; split
    · decide
    · split <;> decide
  · rw [if_neg (by simp [h.mode])] at hs
    simp only at hs
    rcases h.log.flush o n (h.flushOk hn) hp db.table S.setBatch with ⟨e, he, h1, h2⟩ | ⟨l', t', he, ho⟩
    · rw [he] at hs; cases hs
      exact ⟨h1, [], B, rfl, by simpa using h, rfl, fun _ => rfl, [], [], List.Pairwise.nil, by simp,
        rfl, fun _ _ => rfl⟩
    · rw [he] at hs; cases hs
      refine ⟨by simp, ?_⟩
      obtain ⟨D, B', R, cps, e1, e2, e3, e4, e5, e6⟩ := ho.ex
      refine ⟨D, B', e1, ?_, ho.max, fun hx => absurd rfl hx, R, cps, e3, e4, e5, e6⟩
      have hAB : A ++ D ++ B' = A ++ B := by rw [e1, List.append_assoc]
      refine ⟨e2, ?_, by simp only [ho.cfg]; exact h.mode, ?_, ?_, ?_, ?_⟩
      · simp only [e5]; split
        · exact h.table
        · exact S.inv_setBatch _ _ _ h.table e3
      · intro k hk
        have hget : vis (S.get t' k) = match lastWrite R k with
            | some r => vis (some r)
            | none => vis (S.get db.table k) := by
          rw [e5]
          by_cases hR : R = []
          · rw [if_pos hR, hR]; rfl
          · rw [if_neg hR]; exact S.get_setBatch _ _ _ k h.table e3
        simp only [hget, e6 k hk]
        unfold valueOf
        rw [lastWrite_append]
        cases hD : lastWrite D k with
        | some r => rfl
        | none =>
          have : lastWrite B k = none := by rw [e1, lastWrite_append, hk, hD]; rfl
          simpa [valueOf] using h.old k this
      · intro e; rw [hAB] at e; rw [show (({ db with log := l', table := t' } : DB K S).log.getMaxSeqNum) = db.log.getMaxSeqNum from ho.max]
        exact h.max0 e
      · intro e; rw [hAB] at e ⊢; rw [show (({ db with log := l', table := t' } : DB K S).log.getMaxSeqNum) = db.log.getMaxSeqNum from ho.max]
        exact h.maxS e
      · rw [hAB]; exact h.pos

theorem DBInv.maint {db : DB K S} {A B} (h : DBInv db A B) {t} (ht : S.maint db.table t) :
    DBInv { db with table := t } A B := by
  obtain ⟨h1, h2⟩ := S.maint_ok _ _ h.table ht
  exact ⟨h.log, h1, h.mode, fun k hk => by simp only [h2]; exact h.old k hk, h.max0, h.maxS, h.pos⟩

theorem DB.setRecord_table {db db' : DB K S} {r se st} (hs : db.setRecord r se = (st, db')) :
    db'.table = db.table := by
  unfold DB.setRecord at hs
  split at hs
  · cases hs; rfl
  · have := congrArg Prod.snd hs; simp only at this; rw [← this]

theorem DB.setRecordBatch_table {db db' : DB K S} {b st} (hs : db.setRecordBatch b = (st, db')) :
    db'.table = db.table := by
  unfold DB.setRecordBatch at hs
  split at hs
  · cases hs; rfl
  · have := congrArg Prod.snd hs; simp only at this; rw [← this]

theorem DB.sync_table {db db' : DB K S} {st} (hs : db.sync = (st, db')) : db'.table = db.table := by
  unfold DB.sync at hs
  split at hs
  · cases hs; rfl
  · have := congrArg Prod.snd hs; simp only at this; rw [← this]

theorem DB.checkpoint_table {db db' : DB K S} {st c} (hs : db.checkpoint = (st, db', c)) :
    db'.table = db.table := by
  unfold DB.checkpoint at hs
  have := congrArg (fun x => x.2.1) hs
  simp only at this; rw [← this]

/-- What a reader gets, in terms of the two parts of the history. -/
theorem DBInv.get_eq {db : DB K S} {A B} (h : DBInv db A B) (hc : db.check .read = .ok) (k : K) :
    db.getRecordByKey k = match valueOf (A ++ B) k with
      | some r => if r.isIns then (.ok, some r) else (.keyNotFound, none)
      | none => (.keyNotFound, none) := by
  unfold DB.getRecordByKey
  rw [hc]
  simp only [ne_eq, not_true_eq_false, if_false, h.log.get_eq]
  unfold valueOf
  rw [lastWrite_append]
  cases hB : lastWrite B k with
  | some r =>
    simp only [Option.some_or, vis]
    cases hd : r.isDel
    · simp
    · have : r.isIns = false := by
        unfold Rec.isDel at hd; unfold Rec.isIns
        cases ht : r.type <;> simp_all
      simp [this]
  | none =>
    have ho := h.old k hB
    unfold valueOf at ho
    simp only [Option.none_or, DB.tableGet, h.mode, Bool.false_eq_true, if_false]
    rw [← ho]
    cases hg : S.get db.table k with
    | none => rfl
    | some r =>
      simp only [vis]
      cases hd : r.isDel
      · simp
      · have : r.isIns = false := by
          unfold Rec.isDel at hd; unfold Rec.isIns
          cases ht : r.type <;> simp_all
        simp [this]

end Jungle
