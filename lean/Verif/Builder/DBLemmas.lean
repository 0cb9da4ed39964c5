/-
  The opened database and every call after that.
-/
import Verif.Builder.LogLemmas
import Verif.Builder.Section
import Verif.DB.Lemmas

set_option linter.unusedSectionVars false

namespace Jungle
open Spec
variable {K : Type} [LinearOrder K] {S : TableSys K}

/-- Calls on a handle that started as `d`: `h` are the records accepted since then.  The rules are those of
    `Reach` (Verif/DB/Reach.lean) without its start and without reopening. -/
inductive After (d : DB K S) : DB K S → List (Rec K) → Prop
  | start : After d d []
  /-- an accepted single write -/
  | set {db h} (r : Rec K) (se : Bool) {db'} : After d db h → db.Fits 1 → db.FreshSeq r.seq →
      (db.getMaxSeqNum = none → se = false) →
      db.setRecord r se = (.ok, db') →
      After d db' (h ++ number (db.getMaxSeqNum.getD 0) [r])
  /-- a refused single write -/
  | setRefused {db h} (r : Rec K) (se : Bool) {st db'} : After d db h →
      db.setRecord r se = (st, db') → st ≠ .ok → After d db' h
  /-- an accepted batch -/
  | batch {db h} (b : List (Rec K)) {db'} : After d db h → db.Fits b.length →
      (∀ r ∈ b, r.seq ≤ NIL) →
      db.setRecordBatch b = (.ok, db') →
      After d db' (h ++ number (db.getMaxSeqNum.getD 0) b)
  /-- a refused batch -/
  | batchRefused {db h} (b : List (Rec K)) {st db'} : After d db h → db.Fits b.length →
      (∀ r ∈ b, r.seq ≤ NIL) →
      db.setRecordBatch b = (st, db') → st ≠ .ok → After d db' h
  | sync {db h} {st db'} : After d db h → db.sync = (st, db') → After d db' h
  | flush {db h} (o : LogMgr.FlushOpts) (n : Nat) {st db'} : After d db h → o.purgeOnly = false →
      db.FlushSeq o n → db.flushLogs o n = (st, db') → After d db' h
  | checkpoint {db h} {st db' c} : After d db h → db.checkpoint = (st, db', c) → After d db' h
  /-- compaction, split, merge of tables -/
  | maint {db h} {t} : After d db h → S.maint db.table t → After d { db with table := t } h
  /-- another thread begins or ends closing or rolling back the handle -/
  | flags {db h} (c r : Bool) : After d db h →
      After d { db with closing := c, rollbackInProgress := r } h

/-- `P`: the records the tables held when the handle was opened, all with numbers up to `n`; `A`: later
    records in tables; `B`: later records still in the log. -/
structure OnTop (P : List (Rec K)) (n : Nat) (db : DB K S) (A B : List (Rec K)) : Prop where
  log : LogInv db.log A B
  table : S.Inv db.table
  mode : db.log.cfg.logSectionOnly = false
  old : ∀ k, lastWrite B k = none → vis (S.get db.table k) = valueOf (P ++ A) k
  max0 : A ++ B = [] → db.log.getMaxSeqNum = some n
  maxS : A ++ B ≠ [] → db.log.getMaxSeqNum = ((A ++ B).getLast?).map (·.seq)
  pos : ∀ r ∈ A ++ B, n < r.seq ∧ r.seq < NIL

namespace OnTop
variable {P : List (Rec K)} {n : Nat} {db : DB K S} {A B : List (Rec K)}

theorem max_ge (h : OnTop P n db A B) : ∃ m, db.getMaxSeqNum = some m ∧ n ≤ m := by
  by_cases he : A ++ B = []
  · exact ⟨n, h.max0 he, Nat.le_refl _⟩
  · have h1 := h.maxS he
    cases hg : (A ++ B).getLast? with
    | none => exact absurd (List.getLast?_eq_none_iff.1 hg) he
    | some x =>
      rw [hg] at h1
      exact ⟨x.seq, h1, Nat.le_of_lt (h.pos x (List.mem_of_getLast? hg)).1⟩

theorem extend (h : OnTop P n db A B) {l' : LogMgr K} {N}
    (hl : LogInv l' A (B ++ N)) (hc : l'.cfg = db.log.cfg) (hne : N ≠ [])
    (hmax : l'.getMaxSeqNum = (N.getLast?).map (·.seq)) (hpos : ∀ r ∈ N, n < r.seq ∧ r.seq < NIL) :
    OnTop P n { db with log := l' } A (B ++ N) := by
  refine ⟨hl, h.table, by rw [hc]; exact h.mode, ?_, ?_, ?_, ?_⟩
  · intro k hk
    rw [lastWrite_append] at hk
    apply h.old
    cases hN : lastWrite N k with
    | none => rwa [hN] at hk
    | some r => rw [hN] at hk; cases hk
  · intro he; simp at he; exact absurd he.2.2 hne
  · intro _
    rw [hmax, ← List.append_assoc, List.getLast?_append]
    cases hg : N.getLast? with
    | none => exact absurd (List.getLast?_eq_none_iff.1 hg) hne
    | some x => rfl
  · intro r hr
    rw [← List.append_assoc] at hr
    rcases List.mem_append.1 hr with hr | hr
    · exact h.pos r hr
    · exact hpos r hr

theorem set (h : OnTop P n db A B) (r : Rec K) (se : Bool)
    (hfit : db.Fits 1) (hseq : db.FreshSeq r.seq) (h0 : r.seq ≠ 0)
    (hse : db.getMaxSeqNum = none → se = false) (hck : db.check .write = .ok) :
    ∃ db', db.setRecord r se = (.ok, db') ∧ OnTop P n db' A (B ++ number (db.getMaxSeqNum.getD 0) [r]) := by
  have hok : db.log.seqOk r.seq := by
    rcases hseq with hn | ⟨hn, hm⟩
    · left; refine ⟨hn, ?_⟩; rw [h.log.nextSeq_eq]; exact hfit.1
    · right; exact ⟨by omega, hn, hm⟩
  obtain ⟨s, l', hs, ho⟩ := h.log.setSN r se hok hfit.2 hse
  obtain ⟨m, hm, hnm⟩ := h.max_ge
  have hlt : n < s := by
    by_cases hn : r.seq = NIL
    · have h1 : s = db.log.getMaxSeqNum.getD 0 + 1 := ho.number hn
      have h2 : db.log.getMaxSeqNum = some m := hm
      rw [h2] at h1; simp only [Option.getD_some] at h1; omega
    · have h1 := ho.explicit hn
      rcases hseq with h2 | ⟨-, h2⟩
      · exact absurd h2 hn
      · rw [hm] at h2; simp at h2; omega
  have hnum : number (db.getMaxSeqNum.getD 0) [r] = [stamp r s] := by
    rw [number_one]
    by_cases hn : r.seq = NIL
    · rw [if_pos hn, ho.number hn]; rfl
    · rw [if_neg hn, ho.explicit hn]
  unfold DB.setRecord
  rw [hck]
  simp only [ne_eq, not_true_eq_false, if_false, hs]
  refine ⟨_, rfl, ?_⟩
  rw [hnum]
  have hinv := ho.inv
  rw [accepted_eq_stamp] at hinv
  refine h.extend hinv ho.cfg (by simp) (by rw [ho.max]; rfl) ?_
  intro x hx; simp only [List.mem_singleton] at hx; subst hx
  exact ⟨hlt, ho.lt⟩

theorem batch (h : OnTop P n db A B) (b : List (Rec K))
    (hfit : db.Fits b.length) (hN : ∀ r ∈ b, r.seq ≤ NIL) (hck : db.check .write = .ok) :
    (∃ db', db.setRecordBatch b = (.ok, db') ∧
      OnTop P n db' A (B ++ number (db.getMaxSeqNum.getD 0) b)) ∨
    (∃ st, st ≠ .ok ∧ db.setRecordBatch b = (st, db)) := by
  have hroom : db.log.nextSeq + b.length ≤ NIL := by
    rw [h.log.nextSeq_eq]; have := hfit.1; unfold DB.getMaxSeqNum at this; omega
  obtain ⟨m, hm, hnm⟩ := h.max_ge
  rcases h.log.setMulti b hN hroom with ⟨hne, hb, l', hs, ho⟩ | ⟨hb, hs⟩
  · left
    unfold DB.setRecordBatch
    rw [hck]
    simp only [ne_eq, not_true_eq_false, if_false, hs]
    refine ⟨_, rfl, ?_⟩
    refine h.extend ho.inv ho.cfg (number_ne_nil _ hne) (ho.max hne) ?_
    intro r hr
    refine ⟨?_, ho.lt r hr⟩
    have h1 := (List.pairwise_cons.1 ho.inc).1 r.seq (List.mem_map_of_mem hr)
    have h2 : db.log.getMaxSeqNum = some m := hm
    rw [h2] at h1; simp only [Option.getD_some] at h1
    omega
  · right
    unfold DB.setRecordBatch
    rw [hck]
    simp only [ne_eq, not_true_eq_false, if_false, hs]
    refine ⟨_, ?_, rfl⟩
    split <;> decide

theorem ofLog (h : OnTop P n db A B) {l' : LogMgr K}
    (hl : LogInv l' A B) (hc : l'.cfg = db.log.cfg) (hm : l'.getMaxSeqNum = db.log.getMaxSeqNum) :
    OnTop P n { db with log := l' } A B :=
  ⟨hl, h.table, by rw [hc]; exact h.mode, h.old, fun e => by rw [hm]; exact h.max0 e,
    fun e => by rw [hm]; exact h.maxS e, h.pos⟩

theorem sync (h : OnTop P n db A B) {st db'} (hs : db.sync = (st, db')) : OnTop P n db' A B := by
  unfold DB.sync at hs
  split at hs
  · cases hs; exact h
  · obtain ⟨l', e, hl, hc, -, -, hm⟩ := h.log.sync
    rw [e] at hs; cases hs
    exact h.ofLog hl hc hm

theorem checkpoint (h : OnTop P n db A B) {st db' c}
    (hs : db.checkpoint = (st, db', c)) : OnTop P n db' A B := by
  unfold DB.checkpoint at hs
  obtain ⟨hl1, h2, hc1, -, -, hm1⟩ := h.log.checkpoint
  obtain ⟨l', e, hl, hc, -, -, hm⟩ := hl1.sync
  simp only [e, h2] at hs; cases hs
  exact h.ofLog hl (hc.trans hc1) (hm.trans hm1)

theorem flushOk (h : OnTop P n db A B) {o : LogMgr.FlushOpts} {q : Nat}
    (hn : db.FlushSeq o q) : db.log.flushOk o q := by
  rcases hn with hn | ⟨r, hr, hb⟩ | hn
  · exact Or.inl hn
  · right; left
    obtain ⟨-, hrB, hrn⟩ := h.log.getSN_sound hr
    have hrB' := hrB
    rw [h.log.pend] at hrB
    obtain ⟨f, hf, hrf⟩ := List.mem_flatMap.1 hrB
    refine ⟨f, hf, r, pending_sub hrf, hrn, ?_⟩
    rcases hb with hb | ⟨m, hm, hle⟩
    · exact Or.inl hb
    · right
      unfold DB.getLastSyncedSeqNum LogMgr.getLastSyncedSeqNum at hm
      cases hg : db.log.file? db.log.lastSynced with
      | none => rw [hg] at hm; cases hm
      | some g =>
        rw [hg] at hm
        simp only at hm
        split at hm
        · cases hm
        · next hsy =>
          cases hm
          have hg1 : g ∈ db.log.files := List.mem_of_find?_eq_some hg
          have hg2 : g.num = db.log.lastSynced := by simpa using List.find?_some hg
          have hr' := h.log.num_range hg1
          have := h.log.numN
          refine ⟨by omega, ?_⟩
          by_contra hlt
          have hb := h.log.max_le hg1 hf (by omega)
          have hwf := (h.log.wf g hg1)
          have := hb.recs hb.ne r (pending_sub hrf)
          rcases hwf.synced with h1 | h1
          · exact hsy h1
          · omega
  · exact Or.inr (Or.inr hn)

theorem flush (h : OnTop P n db A B) {o : LogMgr.FlushOpts} {q : Nat} (hf : db.log.flushOk o q) (hp : o.purgeOnly = false)
    {st db'} (hs : db.flushLogs o q = (st, db')) :
    st ≠ .undefinedBehaviour ∧ ∃ D B', B = D ++ B' ∧ OnTop P n db' (A ++ D) B' := by
  unfold DB.flushLogs at hs
  split at hs
  · cases hs
    refine ⟨?_, [], B, rfl, by simpa using h⟩
    unfold DB.check; split
    · decide
    · split <;> decide
  · rw [if_neg (by simp [h.mode])] at hs
    simp only at hs
    rcases h.log.flush o q hf hp db.table S.setBatch with ⟨e, he, h1, h2⟩ | ⟨l', t', he, ho⟩
    · rw [he] at hs; cases hs
      exact ⟨h1, [], B, rfl, by simpa using h⟩
    · rw [he] at hs; cases hs
      refine ⟨by simp, ?_⟩
      obtain ⟨D, B', R, cps, e1, e2, e3, e4, e5, e6⟩ := ho.ex
      refine ⟨D, B', e1, ?_⟩
      have hAB : A ++ D ++ B' = A ++ B := by rw [e1, List.append_assoc]
      refine ⟨e2, ?_, by simp only [ho.cfg]; exact h.mode, ?_, ?_, ?_, ?_⟩
      · simp only [e5]; split
        · exact h.table
        · exact S.inv_setBatch _ _ _ h.table e3
      · intro k hk
        have hget : vis (S.get t' k) = match lastWrite R k with
            | some r => vis (some r)
            | none => vis (S.get db.table k) := by
          rw [e5]
          by_cases hR : R = []
          · rw [if_pos hR, hR]; rfl
          · rw [if_neg hR]; exact S.get_setBatch _ _ _ k h.table e3
        simp only [hget, e6 k hk]
        unfold valueOf
        rw [← List.append_assoc, lastWrite_append]
        cases hD : lastWrite D k with
        | some r => rfl
        | none =>
          have : lastWrite B k = none := by rw [e1, lastWrite_append, hk, hD]; rfl
          simpa [valueOf] using h.old k this
      · intro e; rw [hAB] at e; rw [show (({ db with log := l', table := t' } : DB K S).log.getMaxSeqNum) = db.log.getMaxSeqNum from ho.max]
        exact h.max0 e
      · intro e; rw [hAB] at e ⊢; rw [show (({ db with log := l', table := t' } : DB K S).log.getMaxSeqNum) = db.log.getMaxSeqNum from ho.max]
        exact h.maxS e
      · rw [hAB]; exact h.pos

theorem get_eq (h : OnTop P n db A B) (hc : db.check .read = .ok) (k : K) :
    db.getRecordByKey k = match valueOf (P ++ A ++ B) k with
      | some r => if r.isIns then (.ok, some r) else (.keyNotFound, none)
      | none => (.keyNotFound, none) := by
  unfold DB.getRecordByKey
  rw [hc]
  simp only [ne_eq, not_true_eq_false, if_false, h.log.get_eq]
  unfold valueOf
  rw [lastWrite_append]
  cases hB : lastWrite B k with
  | some r =>
    simp only [Option.some_or, vis]
    cases hd : r.isDel
    · simp
    · have : r.isIns = false := by
        unfold Rec.isDel at hd; unfold Rec.isIns
        cases ht : r.type <;> simp_all
      simp [this]
  | none =>
    have ho := h.old k hB
    unfold valueOf at ho
    simp only [Option.none_or, DB.tableGet, h.mode, Bool.false_eq_true, if_false]
    rw [← ho]
    cases hg : S.get db.table k with
    | none => rfl
    | some r =>
      simp only [vis]
      cases hd : r.isDel
      · simp
      · have : r.isIns = false := by
          unfold Rec.isDel at hd; unfold Rec.isIns
          cases ht : r.type <;> simp_all
        simp [this]

end OnTop

/-- Every call keeps the picture. -/
theorem After.inv {P : List (Rec K)} {n : Nat} {d db : DB K S} {h : List (Rec K)} (h0 : OnTop P n d [] [])
    (ha : After d db h) : ∃ A B, h = A ++ B ∧ OnTop P n db A B := by
  induction ha with
  | start => exact ⟨[], [], rfl, h0⟩
  | @set db h r se db' _ hfit hseq hse hs ih =>
    obtain ⟨A, B, rfl, hi⟩ := ih
    have hck : db.check .write = .ok := by
      unfold DB.setRecord at hs
      split at hs
      · next hc => exact absurd (congrArg Prod.fst hs) hc
      · next hc => simpa using hc
    have h0 : r.seq ≠ 0 := by
      intro e
      unfold DB.setRecord LogMgr.setSN at hs
      rw [hck] at hs
      simp [hi.log.rw, e] at hs
    obtain ⟨db'', hs', hi'⟩ := hi.set r se hfit hseq h0 hse hck
    rw [hs] at hs'; cases hs'
    exact ⟨A, _, List.append_assoc _ _ _, hi'⟩
  | @setRefused db h r se st db' _ hs hst ih =>
    obtain ⟨A, B, rfl, hi⟩ := ih
    refine ⟨A, B, rfl, ?_⟩
    unfold DB.setRecord at hs
    split at hs
    · cases hs; exact hi
    · obtain ⟨hd1, hd⟩ := Prod.ext_iff.1 hs
      simp only at hd hd1
      have e := hi.log.setSN_refused r se (Prod.ext hd1 rfl) hst
      rw [← hd]
      exact hi.ofLog (l' := (db.log.setSN r se).snd) (by rw [show (db.log.setSN r se).snd = db.log from e]; exact hi.log)
        (by rw [show (db.log.setSN r se).snd = db.log from e]) (by rw [show (db.log.setSN r se).snd = db.log from e])
  | @batch db h b db' _ hfit hN hs ih =>
    obtain ⟨A, B, rfl, hi⟩ := ih
    have hck : db.check .write = .ok := by
      unfold DB.setRecordBatch at hs
      split at hs
      · next hc => exact absurd (congrArg Prod.fst hs) hc
      · next hc => simpa using hc
    rcases hi.batch b hfit hN hck with ⟨db'', hs', hi'⟩ | ⟨st, hst, hs'⟩
    · rw [hs] at hs'; cases hs'
      exact ⟨A, _, List.append_assoc _ _ _, hi'⟩
    · rw [hs] at hs'
      exact absurd (congrArg Prod.fst hs').symm hst
  | @batchRefused db h b st db' _ hfit hN hs hst ih =>
    obtain ⟨A, B, rfl, hi⟩ := ih
    refine ⟨A, B, rfl, ?_⟩
    by_cases hck : db.check .write = .ok
    · rcases hi.batch b hfit hN hck with ⟨db'', hs', hi'⟩ | ⟨st', -, hs'⟩
      · rw [hs] at hs'; cases hs'; exact absurd rfl hst
      · rw [hs] at hs'
        have := congrArg Prod.snd hs'
        simp only at this
        rw [this]; exact hi
    · unfold DB.setRecordBatch at hs
      rw [if_pos hck] at hs; cases hs; exact hi
  | sync _ hs ih => obtain ⟨A, B, e, hi⟩ := ih; exact ⟨A, B, e, hi.sync hs⟩
  | flush o q _ hp hn hs ih =>
    obtain ⟨A, B, e, hi⟩ := ih
    obtain ⟨-, D, B', e', hi'⟩ := hi.flush (hi.flushOk hn) hp hs
    exact ⟨A ++ D, B', by rw [e, e', List.append_assoc], hi'⟩
  | checkpoint _ hs ih => obtain ⟨A, B, e, hi⟩ := ih; exact ⟨A, B, e, hi.checkpoint hs⟩
  | maint _ ht ih =>
    obtain ⟨A, B, e, hi⟩ := ih
    obtain ⟨h1, h2⟩ := S.maint_ok _ _ hi.table ht
    exact ⟨A, B, e, hi.log, h1, hi.mode, fun k hk => by simp only [h2]; exact hi.old k hk, hi.max0, hi.maxS, hi.pos⟩
  | flags c r _ ih =>
    obtain ⟨A, B, e, hi⟩ := ih
    exact ⟨A, B, e, hi.log, hi.table, hi.mode, hi.old, hi.max0, hi.maxS, hi.pos⟩

section opened
variable [OrderBot K]

/-- The database made from good table files, just opened. -/
theorem Builder.Good.onTop {tds : List (TData K)} (h : Builder.Good tds) (c : TCfg K) {parts : Nat} (hp : 0 < parts)
    (cfg : Cfg) (hc : cfg.Plain) (h0 : 0 < Builder.maxSeq tds) (hN : Builder.maxSeq tds < NIL) :
    OnTop (Builder.contents tds) (Builder.maxSeq tds) (DB.fromTables c hp cfg tds) [] [] := by
  obtain ⟨h1, h2, h3⟩ := LogMgr.built_inv (K := K) cfg hc h0 hN
  have hi := h.inv c hp
  have hr := TMgr.reopen_same hi
  refine ⟨h1, hr.inv, ?_, ?_, fun _ => h2, fun he => absurd rfl he, by simp⟩
  · show (LogMgr.built cfg (Builder.maxSeq tds) : LogMgr K).cfg.logSectionOnly = false
    rw [h3]; exact hc.tables
  · intro k _
    show vis ((Builder.tableSection parts tds).reopen.get c k) = _
    rw [hr.vis k, h.get c hp k, List.append_nil]
    rfl

end opened
end Jungle
