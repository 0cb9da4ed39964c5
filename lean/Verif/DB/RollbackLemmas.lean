/-
  The invariant of executions in log-section mode.
-/
import Verif.DB.Rollback
import Verif.DB.CrashLemmas
import Verif.Log.RollbackLemmas
import Verif.Log.LogStoreLemmas

namespace Jungle
open Spec
set_option linter.unusedSectionVars false
variable {K : Type} [LinearOrder K] {S : TableSys K}

structure LDInv (db : DB K S) (B : List (Rec K)) : Prop where
  log : LRInv db.log B
  only : db.log.cfg.logSectionOnly = true
  max0 : B = [] → db.log.getMaxSeqNum = none
  maxS : B ≠ [] → db.log.getMaxSeqNum = (B.getLast?).map (·.seq)

theorem LDInv.init (c : Cfg) (hc : c.LogOnly) : LDInv (DB.init S c) [] :=
  ⟨LRInv.init c (LogInv.init' c hc.rw hc.noOverwrite hc.entries), hc.only, fun _ => rfl, fun h => absurd rfl h⟩

theorem LDInv.extend {db : DB K S} {B : List (Rec K)} (h : LDInv db B) {l' : LogMgr K} {N}
    (hl : LRInv l' (B ++ N)) (hc : l'.cfg = db.log.cfg) (hne : N ≠ [])
    (hmax : l'.getMaxSeqNum = (N.getLast?).map (·.seq)) : LDInv { db with log := l' } (B ++ N) := by
  refine ⟨hl, by rw [hc]; exact h.only, fun e => ?_, fun _ => ?_⟩
  · simp at e; exact absurd e.2 hne
  · rw [hmax, List.getLast?_append]
    cases hg : N.getLast? with
    | none => exact absurd (List.getLast?_eq_none_iff.1 hg) hne
    | some x => rfl

theorem LDInv.ofLog {db : DB K S} {B} (h : LDInv db B) {l' : LogMgr K}
    (hl : LRInv l' B) (hc : l'.cfg = db.log.cfg) (hm : l'.getMaxSeqNum = db.log.getMaxSeqNum) :
    LDInv { db with log := l' } B :=
  ⟨hl, by rw [hc]; exact h.only, fun e => by rw [hm]; exact h.max0 e, fun e => by rw [hm]; exact h.maxS e⟩

theorem LDInv.set {db : DB K S} {B} (h : LDInv db B) (r : Rec K) (se : Bool)
    (hfit : db.Fits 1) (hseq : db.FreshSeq r.seq) (h0 : r.seq ≠ 0)
    (hse : db.getMaxSeqNum = none → se = false) (hck : db.check .write = .ok) :
    ∃ db', db.setRecord r se = (.ok, db') ∧
      LDInv db' (B ++ number (db.getMaxSeqNum.getD 0) [r]) := by
  have hok : db.log.seqOk r.seq := by
    rcases hseq with hn | ⟨hn, hm⟩
    · left; refine ⟨hn, ?_⟩; rw [h.log.log.nextSeq_eq]; exact hfit.1
    · right; exact ⟨by omega, hn, hm⟩
  obtain ⟨s, l', hs, ho⟩ := h.log.log.setSN r se hok hfit.2 hse
  have hnum : number (db.getMaxSeqNum.getD 0) [r] = [stamp r s] := by
    rw [number_one]
    by_cases hn : r.seq = NIL
    · rw [if_pos hn, ho.number hn]; rfl
    · rw [if_neg hn, ho.explicit hn]
  unfold DB.setRecord
  rw [hck]
  simp only [ne_eq, not_true_eq_false, if_false, hs]
  refine ⟨_, rfl, ?_⟩
  rw [hnum]
  have hinv := ho.inv
  rw [accepted_eq_stamp] at hinv
  exact h.extend ⟨hinv, h.log.store.put h.log.log ho.step, h.log.low.put ho.step⟩ ho.cfg (by simp)
    (by rw [ho.max]; rfl)

theorem LDInv.batch {db : DB K S} {B} (h : LDInv db B) (b : List (Rec K))
    (hfit : db.Fits b.length) (hN : ∀ r ∈ b, r.seq ≤ NIL) (hck : db.check .write = .ok) :
    (∃ db', db.setRecordBatch b = (.ok, db') ∧ LDInv db' (B ++ number (db.getMaxSeqNum.getD 0) b)) ∨
    ∃ st, st ≠ .ok ∧ db.setRecordBatch b = (st, db) := by
  have hroom : db.log.nextSeq + b.length ≤ NIL := by
    rw [h.log.log.nextSeq_eq]; have := hfit.1; unfold DB.getMaxSeqNum at this; omega
  rcases h.log.log.setMulti b hN hroom with ⟨hne, hb, l', hs, ho⟩ | ⟨hb, hs⟩
  · left
    unfold DB.setRecordBatch
    rw [hck]
    simp only [ne_eq, not_true_eq_false, if_false, hs]
    refine ⟨_, rfl, ?_⟩
    refine h.extend ⟨ho.inv, (ho.steps.ok h.log.log h.log.store).1, h.log.low.puts ho.steps⟩ ho.cfg
      (number_ne_nil _ hne) (ho.max hne)
  · right
    refine ⟨if b = [] then .emptyBatch else .invalidSeqnum, by split <;> simp, ?_⟩
    unfold DB.setRecordBatch
    rw [hck]
    simp only [ne_eq, not_true_eq_false, if_false, hs]

theorem LDInv.rollback {db : DB K S} {B} (h : LDInv db B) (hne : B ≠ []) (n : Nat) (hck : db.check .write = .ok) :
    (∃ db', db.rollback n = (.ok, db') ∧ LDInv db' (upTo B n) ∧ upTo B n ≠ [] ∧
      db' = { db with log := db'.log }) ∨
    (∃ db', db.rollback n = (.logFileNotFound, db') ∧ LDInv db' B ∧ db' = { db with log := db'.log } ∧
      db'.getMaxSeqNum = db.getMaxSeqNum ∧ ∀ r ∈ B, r.seq ≠ n) := by
  unfold DB.rollback
  rw [hck, h.only]
  simp only [ne_eq, not_true_eq_false, if_false, Bool.not_true, Bool.false_eq_true]
  rcases h.log.rollback hne n with ⟨l', h1, h2, h3, r, hr, h4, -⟩ | ⟨l', h1, h2, h3, h4, h5⟩
  · left
    refine ⟨_, by rw [h1], ?_, List.ne_nil_of_mem hr, rfl⟩
    show LDInv { db with log := l' } _
    have hB : upTo B n ≠ [] := List.ne_nil_of_mem hr
    refine ⟨h2, by rw [h3]; exact h.only, fun e => absurd e hB, fun _ => ?_⟩
    show l'.getMaxSeqNum = _
    cases hl : (upTo B n).getLast? with
    | none => exact absurd (List.getLast?_eq_none_iff.1 hl) hB
    | some x =>
      rw [h4]
      obtain ⟨L, hL⟩ := List.getLast?_eq_some_iff.1 hl
      obtain ⟨fs, f, hf⟩ := h2.log.split_last
      have htop := h2.log.top fs f hf
      have hmx := h2.log.getMax_eq hf
      rw [h4] at hmx
      by_cases hm : f.mem.maxSeqNum = NIL
      · rw [if_neg (by simp [hm])] at hmx; cases hmx
      · rw [if_pos hm] at hmx
        have a1 := htop.2 hm x (by
          show x ∈ [] ++ upTo B n
          rw [hL]; simp)
        have a2 : r.seq ≤ x.seq := by
          have hi : Increasing (upTo B n) := h2.log.inc
          have hr' : r ∈ upTo B n := hr
          rw [hL] at hr' hi
          rcases List.mem_append.1 hr' with h5 | h5
          · exact Nat.le_of_lt ((List.pairwise_append.1 hi).2.2 r h5 x (by simp))
          · simp only [List.mem_singleton] at h5; rw [h5]; exact Nat.le_refl _
        have a3 : r.seq = f.mem.maxSeqNum := Option.some.inj hmx
        simp only [Option.map_some]
        congr 1; omega
  · right
    refine ⟨_, by rw [h1], ?_, rfl, ?_, h5⟩
    · exact h.ofLog h2 h3 h4
    · exact h4

theorem LDInv.ofLR {db : DB K S} {B} (h : LRInv db.log B) (ho : db.log.cfg.logSectionOnly = true) : LDInv db B :=
  ⟨h, ho, h.max_eq.1, h.max_eq.2⟩

theorem LDInv.once {db : DB K S} {B} (h : LDInv db B) (hls : db.log.lastSynced = db.log.maxNum)
    (ho : db.getLastSyncedSeqNum ≠ none) : ∀ f ∈ db.log.files, f.mem.syncedSeqNum ≠ NIL := by
  have hl := h.log.log
  obtain ⟨fs, g, hg⟩ := hl.split_last
  have hgf : g ∈ db.log.files := by rw [hg]; simp
  have hgn : g.num = db.log.maxNum := hl.last_num hg
  have hgs : g.mem.syncedSeqNum ≠ NIL := by
    intro e
    apply ho
    unfold DB.getLastSyncedSeqNum LogMgr.getLastSyncedSeqNum
    rw [hls, ← hgn, hl.file?_mem hgf]
    simp [e]
  have hsf : db.log.syncFrom = db.log.maxNum := by
    unfold LogMgr.syncFrom; rw [hls, if_pos (Nat.ne_of_lt hl.numN)]
  intro f hf
  by_cases e : f.num = g.num
  · rw [hl.same_num hf hgf e]; exact hgs
  · have := (hl.num_range hf).2
    rw [h.log.store.lo f hf (by rw [hsf]; omega)]
    exact hl.ne_last hf (by omega)

/-- Opening again what a handle in log-section mode left. -/
theorem LDInv.left {db : DB K S} {B} (h : LDInv db B) {d : Disk K S} (hd : LogLeft db d) :
    ∃ q, (∃ r ∈ B, r.seq = q) ∧ (∀ f ∈ db.log.files, f.mem.syncedSeqNum ≤ q) ∧
      ∀ (cfg : Cfg) (trunc : Bool), cfg.LogOnly → (trunc = true → Consecutive B) →
        (DB.reopenOnly cfg trunc d).getMaxSeqNum = some q ∧ LDInv (DB.reopenOnly cfg trunc d) (upTo B q) := by
  have hs := h.once hd.synced hd.once
  obtain ⟨q, hD, hr, hq⟩ := h.log.left hd.synced hs (disk := d.files) hd.files
  refine ⟨q, hr, hq, fun cfg trunc hc ht => ?_⟩
  obtain ⟨e, hi⟩ := h.log.reloaded hD hc.rw hc.noOverwrite hc.entries trunc (fun h1 => h.log.passes hd.synced hs (ht h1))
  have el : (DB.reopenOnly cfg trunc d).log = db.log.reloaded cfg d.files := by
    show LogMgr.recoverOnly cfg trunc d.mani d.files = _
    rw [hd.mani]; exact e
  have hI : LDInv (DB.reopenOnly cfg trunc d) (upTo B q) := LDInv.ofLR (by rw [el]; exact hi) (by rw [el]; exact hc.only)
  refine ⟨?_, hI⟩
  obtain ⟨r, hr, er⟩ := hr
  have hm : r ∈ upTo B q := List.mem_filter.2 ⟨hr, by simp; omega⟩
  have hinc : Increasing (upTo B q) := List.Pairwise.sublist List.filter_sublist h.log.log.inc
  obtain ⟨R, x, hx, ex⟩ := last_of_max hinc (fun y hy => by simpa using (List.mem_filter.1 hy).2) ⟨r, hm, er⟩
  show (DB.reopenOnly cfg trunc d).log.getMaxSeqNum = _
  rw [hI.maxS (List.ne_nil_of_mem hm), hx]
  simp [ex]

theorem LDInv.reopened {db db2 : DB K S} {B} (h : LDInv db B) {q : Nat} (hI : LDInv db2 (upTo B q)) (hr : ∃ r ∈ B, r.seq = q) :
    db2.getMaxSeqNum = some q := by
  obtain ⟨r, hr, er⟩ := hr
  have hm : r ∈ upTo B q := List.mem_filter.2 ⟨hr, by simp; omega⟩
  have hinc : Increasing (upTo B q) := List.Pairwise.sublist List.filter_sublist h.log.log.inc
  obtain ⟨R, x, hx, ex⟩ := last_of_max hinc (fun y hy => by simpa using (List.mem_filter.1 hy).2) ⟨r, hm, er⟩
  show db2.log.getMaxSeqNum = _
  rw [hI.maxS (List.ne_nil_of_mem hm), hx]
  simp [ex]

/-- Opening again what a crash with a new log file left. -/
theorem LDInv.leftNew {db : DB K S} {B} (h : LDInv db B) {d : Disk K S} (hd : LogLeftNew db d) :
    ∃ q, (∃ r ∈ B, r.seq = q) ∧ (∀ f ∈ db.log.files, f.num < db.log.maxNum → f.mem.syncedSeqNum ≤ q) ∧
      ∀ (cfg : Cfg), cfg.LogOnly → Consecutive B →
        (DB.reopenOnly cfg true d).getMaxSeqNum = some q ∧ LDInv (DB.reopenOnly cfg true d) (upTo B q) := by
  obtain ⟨h0, ⟨Y, hY⟩, h2, h3, h4⟩ := h.log.withoutNewest hd.synced
  have hL := h0.log
  have hN := h.log.log.numN
  have hs : ∀ f ∈ db.log.withoutNewest.files, f.mem.syncedSeqNum ≠ NIL := by
    intro f hf
    obtain ⟨f1, f2⟩ := h2 f hf
    have hlN : db.log.lastSynced ≠ NIL := by have := hd.synced; omega
    by_cases e : f.num = db.log.lastSynced
    · intro en
      apply hd.once
      unfold DB.getLastSyncedSeqNum LogMgr.getLastSyncedSeqNum
      rw [← e, h.log.log.file?_mem f1]
      simp [en]
    · have hsf : db.log.syncFrom = db.log.lastSynced := by unfold LogMgr.syncFrom; rw [if_pos hlN]
      have := hd.synced
      rw [h.log.store.lo f f1 (by rw [hsf]; omega)]
      exact h.log.log.ne_last f1 f2
  obtain ⟨q, hD, hr, hq⟩ := h0.left h3 hs (disk := d.files) (fun f hf => by
    obtain ⟨f1, f2⟩ := h2 f hf
    obtain ⟨items, i1, i2, i3⟩ := hd.files f f1 f2
    exact ⟨items, i1, i2, by rw [h4 f hf]; exact i3⟩)
  obtain ⟨r, hr, er⟩ := hr
  have hrB : r ∈ B := by rw [hY]; exact List.mem_append_left _ hr
  refine ⟨q, ⟨r, hrB, er⟩, ?_, fun cfg hc ht => ?_⟩
  · intro f hf hlt
    refine hq f ?_
    obtain ⟨fs, g, hg⟩ := h.log.log.split_last
    show f ∈ db.log.files.dropLast
    rw [hg, List.dropLast_concat]
    rw [hg] at hf
    rcases List.mem_append.1 hf with h5 | h5
    · exact h5
    · rw [List.mem_singleton.1 h5, h.log.log.last_num hg] at hlt; omega
  · have hcY : Consecutive (db.log.withoutNewest.files.flatMap LogFile.pending) := by
      intro L a b R e
      refine ht L a b (R ++ Y) ?_
      rw [hY, e]; simp
    have hok := h0.passes h3 hs hcY
    obtain ⟨e, hi⟩ := h0.reloaded hD hc.rw hc.noOverwrite hc.entries true (fun _ => hok)
    have el : (DB.reopenOnly cfg true d).log = db.log.withoutNewest.reloaded cfg d.files := by
      show LogMgr.recoverOnly cfg true d.mani d.files = _
      rcases hd.mani with e1 | e1
      · rw [e1]; exact h.log.whenAdded hd.synced hD hok cfg
      · rw [e1]; exact e
    have hB : cutAt q (db.log.withoutNewest.files.flatMap LogFile.pending) = upTo B q := by
      show _ = B.filter _
      rw [hY, List.filter_append]
      have : Y.filter (fun r => decide (r.seq ≤ q)) = [] := by
        rw [List.filter_eq_nil_iff]
        intro y hy
        have hinc : Increasing B := h.log.log.inc
        rw [hY] at hinc
        have := (List.pairwise_append.1 hinc).2.2 r hr y hy
        simp; omega
      rw [this, List.append_nil]; rfl
    have hI : LDInv (DB.reopenOnly cfg true d) (upTo B q) :=
      LDInv.ofLR (by rw [el, ← hB]; exact hi) (by rw [el]; exact hc.only)
    exact ⟨h.reopened hI ⟨r, hrB, er⟩, hI⟩

theorem LogReach.inv {db : DB K S} {h : List (Rec K)} (hr : LogReach db h) : LDInv db h := by
  induction hr with
  | init c hc => exact LDInv.init c hc
  | @set db h r se db' _ hfit hseq hse hs ih =>
    have hck : db.check .write = .ok := by
      by_contra hc
      unfold DB.setRecord at hs
      rw [if_pos hc] at hs
      exact hc (congrArg Prod.fst hs)
    have h0 : r.seq ≠ 0 := by
      intro h0
      unfold DB.setRecord LogMgr.setSN at hs
      rw [if_neg (by simp [hck]), if_neg (by simp [ih.log.log.rw]), if_pos h0] at hs
      cases congrArg Prod.fst hs
    obtain ⟨d2, h1, h2⟩ := ih.set r se hfit hseq h0 hse hck
    rw [hs] at h1; cases h1; exact h2
  | @setRefused db h r se st db' _ hs hst ih =>
    unfold DB.setRecord at hs
    split at hs
    · cases hs; exact ih
    · have e1 : (db.log.setSN r se).1 = st := congrArg Prod.fst hs
      have e2 : ({ db with log := (db.log.setSN r se).2 } : DB K S) = db' := congrArg Prod.snd hs
      have h2 := ih.log.log.setSN_refused r se (st := st) (l' := (db.log.setSN r se).2) (Prod.ext e1 rfl) hst
      rw [← e2, h2]; exact ih
  | @batch db h b db' _ hfit hN hs ih =>
    have hck : db.check .write = .ok := by
      by_contra hc
      unfold DB.setRecordBatch at hs
      rw [if_pos hc] at hs
      exact hc (congrArg Prod.fst hs)
    rcases ih.batch b hfit hN hck with ⟨d2, h1, h2⟩ | ⟨st, h1, h2⟩
    · rw [hs] at h1; cases h1; exact h2
    · rw [hs] at h2; exact absurd (congrArg Prod.fst h2).symm h1
  | @batchRefused db h b st db' _ hfit hN hs hst ih =>
    by_cases hck : db.check .write = .ok
    · rcases ih.batch b hfit hN hck with ⟨d2, h1, h2⟩ | ⟨st', h1, h2⟩
      · rw [hs] at h1; exact absurd (congrArg Prod.fst h1) hst
      · rw [hs] at h2
        have := congrArg Prod.snd h2
        simp only [] at this
        rw [this]; exact ih
    · unfold DB.setRecordBatch at hs
      rw [if_pos hck] at hs
      cases hs; exact ih
  | @sync db h st db' _ hs ih =>
    unfold DB.sync at hs
    split at hs
    · cases hs; exact ih
    · obtain ⟨l', h1, h2, h3, -, h5, -⟩ := ih.log.sync
      simp only [h1] at hs
      cases hs
      exact ih.ofLog h2 h3 h5
  | @checkpoint db h st db' c _ hs ih =>
    unfold DB.checkpoint at hs
    obtain ⟨-, -, hc1, -, -, hm1⟩ := ih.log.log.checkpoint
    obtain ⟨l', h1, h2, h3, -, h5, -⟩ := ih.log.checkpoint.sync
    simp only [h1] at hs
    cases hs
    exact ih.ofLog h2 (h3.trans hc1) (h5.trans hm1)
  | @rollback db h n db' _ hne hs ih =>
    have hck : db.check .write = .ok := by
      by_contra hc
      unfold DB.rollback at hs
      rw [if_pos hc] at hs
      exact hc (congrArg Prod.fst hs)
    rcases ih.rollback hne n hck with ⟨d2, h1, h2, -⟩ | ⟨d2, h1, -⟩
    · rw [hs] at h1; cases h1; exact h2
    · rw [hs] at h1; cases congrArg Prod.fst h1
  | @rollbackRefused db h n st db' _ hne hs hst ih =>
    by_cases hck : db.check .write = .ok
    · rcases ih.rollback hne n hck with ⟨d2, h1, -⟩ | ⟨d2, h1, h2, -⟩
      · rw [hs] at h1; exact absurd (congrArg Prod.fst h1) hst
      · rw [hs] at h1
        have := congrArg Prod.snd h1
        simp only [] at this
        rw [this]; exact h2
    · unfold DB.rollback at hs
      rw [if_pos hck] at hs
      cases hs; exact ih
  | flags c r _ ih => exact ⟨ih.log, ih.only, ih.max0, ih.maxS⟩
  | evict num _ ih =>
    obtain ⟨h1, h2, h3⟩ := ih.log.evict num
    exact ih.ofLog h1 h3 h2
  | reopen cfg trunc d q _ hc hd ht hq ih =>
    obtain ⟨q', -, -, h3⟩ := ih.left hd
    obtain ⟨h4, h5⟩ := h3 cfg trunc hc ht
    rw [hq] at h4; cases h4
    exact h5
  | reopenNew cfg d q _ hc hd ht hq ih =>
    obtain ⟨q', -, -, h3⟩ := ih.leftNew hd
    obtain ⟨h4, h5⟩ := h3 cfg hc ht
    rw [hq] at h4; cases h4
    exact h5

theorem LDInv.get_eq {db : DB K S} {B} (h : LDInv db B) (hc : db.check .read = .ok) (k : K) :
    db.get k = answer B k ∧ db.getRecordByKey k = answerRec B k := by
  unfold DB.get DB.getRecordByKey answer answerRec
  rw [hc, h.log.log.get_eq k]
  simp only [ne_eq, not_true_eq_false, if_false, DB.tableGet, h.only, if_true]
  cases lastWrite B k <;> exact ⟨rfl, rfl⟩

end Jungle
