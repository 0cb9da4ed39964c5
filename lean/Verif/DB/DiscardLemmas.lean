/-
  The invariant of a handle on which `discardDirty` is called.
-/
import Verif.DB.Discard
import Verif.DB.ReachInv
import Verif.Log.DiscardLemmas

set_option linter.unusedSectionVars false

namespace Jungle
open Spec
variable {K : Type} [LinearOrder K] {S : TableSys K}

/-- Like `DBInv`, but the tables hold the whole flushed history, and numbers may have gaps at
    the end. -/
structure DBCore (db : DB K S) (A B : List (Rec K)) : Prop where
  log : LogInv db.log A B
  table : S.Inv db.table
  mode : db.log.cfg.logSectionOnly = false
  tab : ∀ k, vis (S.get db.table k) = valueOf A k
  pos : ∀ r ∈ A ++ B, 0 < r.seq ∧ r.seq < NIL

theorem DBCore.init (c : Cfg) (hc : c.Plain) : DBCore (DB.init S c) [] [] := by
  refine ⟨LogInv.init c hc, S.inv_empty, hc.tables, ?_, by simp⟩
  intro k
  show vis (S.get S.empty k) = _
  rw [S.get_empty]; rfl

theorem DBCore.extend {db : DB K S} {A B : List (Rec K)} (h : DBCore db A B) {l' : LogMgr K} {N}
    (hl : LogInv l' A (B ++ N)) (hc : l'.cfg = db.log.cfg) (hpos : ∀ r ∈ N, 0 < r.seq ∧ r.seq < NIL) :
    DBCore { db with log := l' } A (B ++ N) := by
  refine ⟨hl, h.table, by rw [hc]; exact h.mode, h.tab, ?_⟩
  intro r hr
  rw [← List.append_assoc] at hr
  rcases List.mem_append.1 hr with hr | hr
  · exact h.pos r hr
  · exact hpos r hr

theorem DBCore.ofLog {db : DB K S} {A B} (h : DBCore db A B) {l' : LogMgr K}
    (hl : LogInv l' A B) (hc : l'.cfg = db.log.cfg) : DBCore { db with log := l' } A B :=
  ⟨hl, h.table, by rw [hc]; exact h.mode, h.tab, h.pos⟩

theorem DBCore.set {db : DB K S} {A B} (h : DBCore db A B) (r : Rec K) (se : Bool)
    (hfit : db.Fits 1) (hseq : db.FreshSeq r.seq) (h0 : r.seq ≠ 0)
    (hse : db.getMaxSeqNum = none → se = false) (hck : db.check .write = .ok) :
    ∃ db', db.setRecord r se = (.ok, db') ∧
      DBCore db' A (B ++ number (db.getMaxSeqNum.getD 0) [r]) := by
  have hok : db.log.seqOk r.seq := by
    rcases hseq with hn | ⟨hn, hm⟩
    · left; refine ⟨hn, ?_⟩; rw [h.log.nextSeq_eq]; exact hfit.1
    · right; exact ⟨by omega, hn, hm⟩
  obtain ⟨s, l', hs, ho⟩ := h.log.setSN r se hok hfit.2 hse
  have hnum : number (db.getMaxSeqNum.getD 0) [r] = [stamp r s] := by
    rw [number_one]
    by_cases hn : r.seq = NIL
    · rw [if_pos hn, ho.number hn]; rfl
    · rw [if_neg hn, ho.explicit hn]
  unfold DB.setRecord
  rw [hck]
  simp only [ne_eq, not_true_eq_false, if_false, hs]
  refine ⟨_, rfl, ?_⟩
  rw [hnum]
  have hinv := ho.inv
  rw [accepted_eq_stamp] at hinv
  refine h.extend hinv ho.cfg ?_
  intro x hx; simp only [List.mem_singleton] at hx; subst hx
  exact ⟨ho.pos, ho.lt⟩

theorem DBCore.batch {db : DB K S} {A B} (h : DBCore db A B) (b : List (Rec K))
    (hfit : db.Fits b.length) (hN : ∀ r ∈ b, r.seq ≤ NIL) {st db'} (hs : db.setRecordBatch b = (st, db')) :
    (st = .ok ∧ DBCore db' A (B ++ number (db.getMaxSeqNum.getD 0) b)) ∨ (st ≠ .ok ∧ db' = db) := by
  unfold DB.setRecordBatch at hs
  split at hs
  · next hc => cases hs; exact Or.inr ⟨hc, rfl⟩
  have hroom : db.log.nextSeq + b.length ≤ NIL := by
    rw [h.log.nextSeq_eq]; have := hfit.1; unfold DB.getMaxSeqNum at this; omega
  rcases h.log.setMulti b hN hroom with ⟨hne, hb, l', hs', ho⟩ | ⟨hb, hs'⟩
  · simp only [hs'] at hs
    cases hs
    refine Or.inl ⟨rfl, h.extend ho.inv ho.cfg ?_⟩
    intro r hr
    refine ⟨?_, ho.lt r hr⟩
    have := (List.pairwise_cons.1 ho.inc).1 r.seq (List.mem_map_of_mem hr)
    omega
  · simp only [hs'] at hs
    cases hs
    refine Or.inr ⟨?_, rfl⟩
    split <;> decide

theorem LogInv.flushSeq_ok {db : DB K S} {A B} (h : LogInv db.log A B) {o : LogMgr.FlushOpts} {n : Nat}
    (hx : n = NIL ∨ o.beyondLastSync = true) (hn : db.FlushSeq o n) : db.log.flushOk o n := by
  rcases hn with hn | ⟨r, hr, -⟩ | hn
  · exact Or.inl hn
  · rcases hx with hx | hx
    · exact Or.inl hx
    right; left
    obtain ⟨-, hrB, hrn⟩ := h.getSN_sound hr
    rw [h.pend] at hrB
    obtain ⟨f, hf, hrf⟩ := List.mem_flatMap.1 hrB
    exact ⟨f, hf, r, pending_sub hrf, hrn, Or.inl hx⟩
  · exact Or.inr (Or.inr hn)

theorem DBCore.flush {db : DB K S} {A B} (h : DBCore db A B) {o : LogMgr.FlushOpts} {n : Nat}
    (hp : o.purgeOnly = false) (hx : n = NIL ∨ o.beyondLastSync = true) (hn : db.FlushSeq o n) {st db'}
    (hs : db.flushLogs o n = (st, db')) :
    ∃ D B', B = D ++ B' ∧ DBCore db' (A ++ D) B' := by
  unfold DB.flushLogs at hs
  split at hs
  · cases hs
    exact ⟨[], B, rfl, by simpa using h⟩
  · rw [if_neg (by simp [h.mode])] at hs
    simp only at hs
    rcases h.log.flush_exact o n (h.log.flushSeq_ok hx hn) hx hp db.table S.setBatch with
      ⟨e, he, h1, h2⟩ | ⟨l', t', he, hcfg, hmax, D, B', cps, e1, e2, e3, e4⟩
    · rw [he] at hs; cases hs
      exact ⟨[], B, rfl, by simpa using h⟩
    · rw [he] at hs; cases hs
      refine ⟨D, B', e1, e2, ?_, by simp only [hcfg]; exact h.mode, ?_, ?_⟩
      · simp only [e4]; split
        · exact h.table
        · exact S.inv_setBatch _ _ _ h.table e3
      · intro k
        have hget : vis (S.get t' k) = match lastWrite D k with
            | some r => vis (some r)
            | none => vis (S.get db.table k) := by
          rw [e4]
          by_cases hR : D = []
          · rw [if_pos hR, hR]; rfl
          · rw [if_neg hR]; exact S.get_setBatch _ _ _ k h.table e3
        simp only [hget]
        unfold valueOf
        rw [lastWrite_append]
        cases hD : lastWrite D k with
        | some r => rfl
        | none => simpa [valueOf] using h.tab k
      · rw [List.append_assoc, ← e1]; exact h.pos

/-- The last flushed number separates the two parts of the history. -/
theorem LogInv.kept_eq {l : LogMgr K} {A B} (h : LogInv l A B) (n : Nat) :
    kept l.getLastFlushedSeqNum n (A ++ B) = A ++ below n B := by
  obtain ⟨f, fs, hf⟩ := List.exists_cons_of_ne_nil h.ne
  have hm := h.mark f fs hf
  have hfm : f ∈ l.files := by rw [hf]; simp
  have hlf : l.getLastFlushedSeqNum = if f.mem.flushedSeqNum = NIL then none else some f.mem.flushedSeqNum := by
    unfold LogMgr.getLastFlushedSeqNum
    rw [h.getLastFlushedLog_eq, show l.minNum = f.num by unfold LogMgr.minNum; rw [hf], h.file?_mem hfm]
  have h0 : kept l.getLastFlushedSeqNum n (A ++ B) =
      kept l.getLastFlushedSeqNum n A ++ kept l.getLastFlushedSeqNum n B := by
    unfold kept; exact List.filter_append _ _
  have h1 : kept l.getLastFlushedSeqNum n A = A := by
    unfold kept
    rw [List.filter_eq_self]
    intro r hr
    have := hm r hr
    rw [hlf, if_neg this.1]
    simp [this.2]
  have h2 : kept l.getLastFlushedSeqNum n B = below n B := by
    unfold kept below
    apply List.filter_congr
    intro r hr
    rw [hlf]
    by_cases hN : f.mem.flushedSeqNum = NIL
    · rw [if_pos hN]; simp
    · rw [if_neg hN]
      have hgt : ¬ r.seq ≤ f.mem.flushedSeqNum := by
        rw [h.pend, hf, List.flatMap_cons] at hr
        rcases List.mem_append.1 hr with hr | hr
        · have := (List.mem_filter.1 hr).2
          simpa [valid_iff.2 hN] using this
        · obtain ⟨g, hg, hr⟩ := List.mem_flatMap.1 hr
          have ho := h.order
          rw [hf] at ho
          have hb := (List.pairwise_cons.1 ho).1 g hg
          have h3 := hb.recs hb.ne r (pending_sub hr)
          rcases (h.wf f hfm).flushed with h4 | h4
          · exact absurd h4 hN
          · omega
      simp [hgt]
  rw [h0, h1, h2]

theorem DBCore.discard {db : DB K S} {A B} (h : DBCore db A B) {n : Nat} {st db'}
    (hs : db.discardDirty n = (st, db')) :
    (st = .ok ∧ DBCore db' A (below n B) ∧ db'.getMaxSeqNum = db.getMaxSeqNum ∧
      db' = { db with log := db.log.cut n } ∧ kept db.getLastFlushedSeqNum n (A ++ B) = A ++ below n B) ∨
    (st ≠ .ok ∧ db' = db) := by
  unfold DB.discardDirty at hs
  split at hs
  · next hc => cases hs; exact Or.inr ⟨hc, rfl⟩
  rcases h.log.discard_eq n with he | he
  · rw [he] at hs; cases hs; exact Or.inr ⟨by simp, rfl⟩
  · rw [he] at hs; cases hs
    refine Or.inl ⟨rfl, ⟨h.log.cut n, h.table, h.mode, h.tab, ?_⟩, h.log.cut_getMax n, rfl, h.log.kept_eq n⟩
    intro r hr
    refine h.pos r ?_
    rcases List.mem_append.1 hr with hr | hr
    · simp [hr]
    · simp [(mem_below.1 hr).1]

theorem DReach.inv {db : DB K S} {h : List (Rec K)} (hr : DReach db h) :
    ∃ A B, h = A ++ B ∧ DBCore db A B := by
  induction hr with
  | init c hc => exact ⟨[], [], rfl, DBCore.init c hc⟩
  | session hp =>
    obtain ⟨A, B, e, hi⟩ := hp.inv
    exact ⟨A, B, e, hi.inv.log, hi.inv.table, hi.inv.mode, hi.tab, hi.inv.pos⟩
  | @set db h r se db' _ hfit hseq hse hs ih =>
    obtain ⟨A, B, rfl, hi⟩ := ih
    have hck : db.check .write = .ok := by
      unfold DB.setRecord at hs
      split at hs
      · next hc => exact absurd (congrArg Prod.fst hs) hc
      · next hc => simpa using hc
    have h0 : r.seq ≠ 0 := by
      intro e
      unfold DB.setRecord LogMgr.setSN at hs
      rw [hck] at hs
      simp [hi.log.rw, e] at hs
    obtain ⟨db'', hs', hi'⟩ := hi.set r se hfit hseq h0 hse hck
    rw [hs] at hs'; cases hs'
    exact ⟨A, _, List.append_assoc _ _ _, hi'⟩
  | @setRefused db h r se st db' _ hs hst ih =>
    obtain ⟨A, B, rfl, hi⟩ := ih
    refine ⟨A, B, rfl, ?_⟩
    unfold DB.setRecord at hs
    split at hs
    · cases hs; exact hi
    · have hd1 := congrArg Prod.fst hs
      have hd := congrArg Prod.snd hs
      simp only at hd hd1
      have e := hi.log.setSN_refused r se (Prod.ext hd1 rfl) hst
      rw [← hd]
      exact hi.ofLog (l' := (db.log.setSN r se).snd) (by rw [show (db.log.setSN r se).snd = db.log from e]; exact hi.log)
        (by rw [show (db.log.setSN r se).snd = db.log from e])
  | @batch db h b st db' _ hfit hN hs ih =>
    obtain ⟨A, B, rfl, hi⟩ := ih
    rcases hi.batch b hfit hN hs with ⟨e, hi'⟩ | ⟨e, rfl⟩
    · rw [if_pos e]
      exact ⟨A, _, List.append_assoc _ _ _, hi'⟩
    · rw [if_neg e]
      exact ⟨A, B, rfl, hi⟩
  | @sync db h st db' _ hs ih =>
    obtain ⟨A, B, e, hi⟩ := ih
    refine ⟨A, B, e, ?_⟩
    unfold DB.sync at hs
    split at hs
    · cases hs; exact hi
    · obtain ⟨l', e, hl, hc, -, -, hm⟩ := hi.log.sync
      rw [e] at hs; cases hs
      exact hi.ofLog hl hc
  | flush o n _ hp hn hx hs ih =>
    obtain ⟨A, B, e, hi⟩ := ih
    obtain ⟨D, B', e', hi'⟩ := hi.flush hp hx hn hs
    exact ⟨A ++ D, B', by rw [e, e', List.append_assoc], hi'⟩
  | @checkpoint db h st db' c _ hs ih =>
    obtain ⟨A, B, e, hi⟩ := ih
    refine ⟨A, B, e, ?_⟩
    unfold DB.checkpoint at hs
    obtain ⟨hl1, h2, hc1, -, -, hm1⟩ := hi.log.checkpoint
    obtain ⟨l', e, hl, hc, -, -, hm⟩ := hl1.sync
    simp only [e, h2] at hs; cases hs
    exact hi.ofLog hl (hc.trans hc1)
  | maint _ ht ih =>
    obtain ⟨A, B, e, hi⟩ := ih
    obtain ⟨h1, h2⟩ := S.maint_ok _ _ hi.table ht
    exact ⟨A, B, e, hi.log, h1, hi.mode, fun k => by simp only [h2]; exact hi.tab k, hi.pos⟩
  | flags c r _ ih =>
    obtain ⟨A, B, e, hi⟩ := ih
    exact ⟨A, B, e, ⟨hi.log, hi.table, hi.mode, hi.tab, hi.pos⟩⟩
  | @discard db h n st db' _ hs ih =>
    obtain ⟨A, B, rfl, hi⟩ := ih
    rcases hi.discard hs with ⟨e, hi', -, -, hk⟩ | ⟨e, rfl⟩
    · rw [if_pos e, hk]
      exact ⟨A, _, rfl, hi'⟩
    · rw [if_neg e]
      exact ⟨A, B, rfl, hi⟩

/-- What reads return. -/
theorem DBCore.answerRec {db : DB K S} {A B} (h : DBCore db A B) (hc : db.closing = false) (k : K) :
    db.getRecordByKey k = Spec.answerRec (A ++ B) k := by
  unfold DB.getRecordByKey
  rw [show db.check .read = .ok by simp [DB.check, hc]]
  simp only [ne_eq, not_true_eq_false, if_false, h.log.get_eq]
  unfold Spec.answerRec
  rw [lastWrite_append]
  cases hB : lastWrite B k with
  | some r => simp only [Option.some_or]
  | none =>
    have ho := h.tab k
    unfold valueOf at ho
    simp only [Option.none_or, DB.tableGet, h.mode, Bool.false_eq_true, if_false]
    have hdi : ∀ r : Rec K, r.isDel = true → r.isIns = false := by
      intro r hd
      unfold Rec.isDel at hd; unfold Rec.isIns
      cases ht : r.type <;> simp_all
    cases hg : S.get db.table k with
    | none =>
      rw [hg] at ho
      cases hA : lastWrite A k with
      | none => rfl
      | some r =>
        rw [hA] at ho
        simp only [vis] at ho
        by_cases hd : r.isDel = true
        · simp [hdi r hd]
        · rw [if_neg hd] at ho; cases ho
    | some r =>
      rw [hg] at ho
      simp only [vis] at ho
      by_cases hd : r.isDel = true
      · rw [if_pos hd] at ho
        simp only [hdi r hd, Bool.false_eq_true, if_false]
        cases hA : lastWrite A k with
        | none => rfl
        | some x =>
          rw [hA] at ho
          simp only at ho
          by_cases hx : x.isDel = true
          · simp [hdi x hx]
          · rw [if_neg hx] at ho; cases ho
      · rw [if_neg hd] at ho
        cases hA : lastWrite A k with
        | none => rw [hA] at ho; cases ho
        | some x =>
          rw [hA] at ho
          simp only at ho
          by_cases hx : x.isDel = true
          · rw [if_pos hx] at ho; cases ho
          · rw [if_neg hx] at ho; cases ho; rfl

end Jungle
