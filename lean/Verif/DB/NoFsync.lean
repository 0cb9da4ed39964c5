/-
  `sync(false)`: log files and manifest are written, but not forced to disk; what a power failure may
  leave.
-/
import Verif.DB.CrashLemmas
import Mathlib.Data.List.Pairwise

set_option linter.unusedSectionVars false

namespace Jungle
open Spec
variable {K : Type} [LinearOrder K] {S : TableSys K}

/-- A handle; the versions of the manifest that may be found after a power failure: the last one
    stored with fsync and every later one; for each log file the items that were forced to disk
    (`LogFile::sync`, src/log_file.cc:574-587). -/
structure FDB (K : Type) [LinearOrder K] (S : TableSys K) where
  db : DB K S
  cands : List PMani
  dur : Nat → List (DItem K)

namespace FDB

/-- A new database: the first log file is empty (src/log_mgr.cc:119-165). -/
def init (S : TableSys K) (c : Cfg) : FDB K S := ⟨DB.init S c, [(LogMgr.init c : LogMgr K).persist], fun _ => []⟩

/-- What the log file with number `n` has been written. -/
def written (l : LogMgr K) (n : Nat) : List (DItem K) := (l.files.find? (fun f => f.num == n)).elim [] LogFile.disk

/-- After `syncInternal(true)` gave `l'` (src/log_mgr.cc:1217-1310): fsync is called for the log files from
    the last synced one to the newest one; the manifest is stored with fsync. -/
def syncOn (s : FDB K S) (l' : LogMgr K) : FDB K S :=
  ⟨{ s.db with log := l' }, [l'.persist], fun n => if s.db.log.syncFrom ≤ n then written l' n else s.dur n⟩

/-- After `syncInternal(false)` gave `l'`: nothing is forced to disk. -/
def syncOff (s : FDB K S) (l' : LogMgr K) : FDB K S :=
  ⟨{ s.db with log := l' }, s.cands ++ [l'.persist], s.dur⟩

end FDB

/-- `PowerLoss s d`: a power failure at rest may leave `d` on disk: one of the versions of the manifest, the
    tables, and of every log file what was forced to disk and any part of what was written after that;
    a log file of which nothing was forced to disk may be missing. -/
structure PowerLoss (s : FDB K S) (d : Disk K S) : Prop where
  mani : d.mani ∈ s.cands
  table : d.table = s.db.table
  files : ∀ f ∈ s.db.log.files,
    (∃ items tail, d.file f.num = some ⟨f.num, items, tail⟩ ∧ tail ≠ .bad ∧ s.dur f.num <+: items ∧ items <+: f.disk) ∨
    (d.file f.num = none ∧ s.dur f.num = [])

/-- `FReach s h n m`: a sequence of calls leads to `s`; `h` lists the accepted records; the first `n` were
    accepted before the last sync that returned OK, the first `m` before the last one with fsync.  A sync
    without fsync has nothing to write but the newest log file, which was synced before
    (`C53_forgotten_fsync_violation`). -/
inductive FReach : FDB K S → List (Rec K) → Nat → Nat → Prop
  | init (c : Cfg) : c.Plain → FReach (FDB.init S c) [] 0 0
  | set {s h n m} (r : Rec K) (se : Bool) {db'} : FReach s h n m → s.db.Fits 1 → s.db.FreshSeq r.seq →
      (s.db.getMaxSeqNum = none → se = false) → s.db.setRecord r se = (.ok, db') →
      FReach ⟨db', if db'.log.maxNum = s.db.log.maxNum then s.cands else s.cands ++ [s.db.log.rotated], s.dur⟩
        (h ++ number (s.db.getMaxSeqNum.getD 0) [r]) n m
  | batch {s h n m} (b : List (Rec K)) {db'} : FReach s h n m → s.db.Fits b.length → (∀ r ∈ b, r.seq ≤ NIL) →
      s.db.setRecordBatch b = (.ok, db') →
      FReach ⟨db', s.cands, s.dur⟩ (h ++ number (s.db.getMaxSeqNum.getD 0) b) n m
  /-- `sync(true)` -/
  | syncOn {s h n m db'} : FReach s h n m → s.db.sync = (.ok, db') → FReach (s.syncOn db'.log) h h.length h.length
  /-- `sync(false)` -/
  | syncOff {s h n m db'} : FReach s h n m → s.db.log.lastSynced = s.db.log.maxNum →
      s.db.getLastSyncedSeqNum ≠ none → s.db.sync = (.ok, db') → FReach (s.syncOff db'.log) h h.length m
  | flush {s h n m} (o : LogMgr.FlushOpts) (q : Nat) {db'} : FReach s h n m → o.purgeOnly = false →
      s.db.SafeFlush o q → s.db.flushLogs o q = (.ok, db') → FReach ⟨db', [db'.log.persist], s.dur⟩ h n m
  /-- a checkpoint before its sync; a completed checkpoint is this and then a sync -/
  | mark {s h n m} : FReach s h n m →
      FReach { s with db := { s.db with log := s.db.log.checkpoint.1 } } h n m
  | maint {s h n m t} : FReach s h n m → S.maint s.db.table t → FReach { s with db := { s.db with table := t } } h n m
  | flags {s h n m} (c r : Bool) : FReach s h n m →
      FReach { s with db := { s.db with closing := c, rollbackInProgress := r } } h n m

theorem DB.sync_log {db db' : DB K S} (h : db.sync = (.ok, db')) : db.log.sync = (.ok, db'.log) ∧ db' = { db with log := db'.log } := by
  unfold DB.sync at h
  split at h
  · next hc => exact absurd (congrArg Prod.fst h) hc
  · generalize he : db.log.sync = x at h
    obtain ⟨e, l⟩ := x
    cases h
    exact ⟨rfl, rfl⟩

/-- What a sync without fsync adds is also a run without power failures. -/
theorem FReach.preach {s : FDB K S} {h n m} (hr : FReach s h n m) : PReach ⟨s.db, s.cands⟩ h n := by
  induction hr with
  | init c hc => exact PReach.init c hc
  | set r se _ h1 h2 h3 h4 ih => exact PReach.set r se ih h1 h2 h3 h4
  | batch b _ h1 h2 h3 ih => exact PReach.batch b ih h1 h2 h3
  | syncOn _ h1 ih =>
    have := PReach.sync ih h1
    rw [(DB.sync_log h1).2] at this
    exact this
  | syncOff _ h1 h2 h3 ih => exact PReach.syncOff ih h1 h2 (DB.sync_log h3).1
  | flush o q _ h1 h2 h3 ih => exact PReach.flush o q ih h1 h2 h3
  | mark _ ih => exact PReach.mark ih
  | maint _ h1 ih => exact PReach.maint ih h1
  | flags c r _ ih => exact PReach.flags c r ih

/-- What is forced to disk. -/
structure FInv (l : LogMgr K) (dur : Nat → List (DItem K)) (h : List (Rec K)) (n m : Nat) : Prop where
  le : m ≤ n ∧ n ≤ h.length
  lo : l.lastSynced ≠ NIL → ∀ f ∈ l.files, f.num < l.lastSynced → dur f.num = f.disk
  saf : ∀ f ∈ l.files, ∀ r ∈ h.take m, r ∈ f.stored → r ∈ dataOf (dur f.num)

/-- Log files after calls that write none of them. -/
def SameDisk (l l' : LogMgr K) : Prop :=
  l'.lastSynced = l.lastSynced ∧ l.maxNum ≤ l'.maxNum ∧
    ∀ f' ∈ l'.files, (∃ f ∈ l.files, f'.num = f.num ∧ f'.disk = f.disk ∧ f'.mem.flushedSeqNum = f.mem.flushedSeqNum) ∨
      (l.maxNum < f'.num ∧ f'.disk = [])

theorem SameDisk.refl (l : LogMgr K) : SameDisk l l :=
  ⟨rfl, Nat.le_refl _, fun f hf => Or.inl ⟨f, hf, rfl, rfl, rfl⟩⟩

theorem SameDisk.trans {l l1 l2 : LogMgr K} (h : SameDisk l l1) (h' : SameDisk l1 l2) : SameDisk l l2 := by
  refine ⟨h'.1.trans h.1, Nat.le_trans h.2.1 h'.2.1, ?_⟩
  intro f2 hf2
  rcases h'.2.2 f2 hf2 with ⟨f1, a1, a2, a3, a4⟩ | ⟨a1, a2⟩
  · rcases h.2.2 f1 a1 with ⟨f, b1, b2, b3, b4⟩ | ⟨b1, b2⟩
    · exact Or.inl ⟨f, b1, a2.trans b2, a3.trans b3, a4.trans b4⟩
    · exact Or.inr ⟨by rw [a2]; exact b1, a3.trans b2⟩
  · exact Or.inr ⟨Nat.lt_of_le_of_lt h.2.1 a1, a2⟩

theorem PutStep.sameDisk {l l' : LogMgr K} {A B} (h : LogInv l A B) (hp : PutStep l l') : SameDisk l l' := by
  obtain ⟨-, e2, φ, N, e3, e4, e5, e6⟩ := hp.shape h
  refine ⟨e2, by omega, ?_⟩
  intro f' hf'
  rw [e3] at hf'
  rcases List.mem_append.1 hf' with hf' | hf'
  · obtain ⟨f, hf, rfl⟩ := List.mem_map.1 hf'
    obtain ⟨a1, a2, a3⟩ := e4 f hf
    exact Or.inl ⟨f, hf, a1, a3, a2⟩
  · obtain ⟨a1, -, a3⟩ := e5 f' hf'
    exact Or.inr ⟨by omega, a3⟩

theorem PutSteps.sameDisk {l l' : LogMgr K} (hp : PutSteps l l') (h : ∃ A B, LogInv l A B) : SameDisk l l' := by
  induction hp with
  | refl => exact SameDisk.refl _
  | step h1 _ h3 _ ih =>
    obtain ⟨A, B, h⟩ := h
    exact (h1.sameDisk h).trans (ih h3)

theorem FInv.same {l l' : LogMgr K} {dur h n m} (hi : FInv l dur h n m) (hs : SameDisk l l')
    (hm : l.lastSynced = NIL ∨ l.lastSynced ≤ l.maxNum) (N : List (Rec K)) : FInv l' dur (h ++ N) n m := by
  have hle := hi.le
  refine ⟨⟨hle.1, by simp only [List.length_append]; omega⟩, ?_, ?_⟩
  · rw [hs.1]
    intro hne f' hf' hlt
    rcases hs.2.2 f' hf' with ⟨f, a1, a2, a3, -⟩ | ⟨a1, -⟩
    · rw [a2, a3]; exact hi.lo hne f a1 (by omega)
    · rcases hm with hm | hm
      · exact absurd hm hne
      · omega
  · intro f' hf' r hr hrs
    rw [take_append_le (by omega)] at hr
    rcases hs.2.2 f' hf' with ⟨f, a1, a2, a3, a4⟩ | ⟨-, a2⟩
    · rw [a2]
      rw [stored_congr a3 a4] at hrs
      exact hi.saf f a1 r hr hrs
    · unfold LogFile.stored above at hrs
      rw [a2] at hrs
      cases hrs

/-- A pending record is in one log file. -/
theorem LogInv.pending_one {l : LogMgr K} {A B} (h : LogInv l A B) {f g : LogFile K} (hf : f ∈ l.files) (hg : g ∈ l.files)
    {r : Rec K} (h1 : r ∈ f.pending) (h2 : r ∈ g.pending) : f = g := by
  have hinc : Increasing B := (List.pairwise_append.1 h.inc).2.1
  rw [h.pend] at hinc
  have hp := (List.pairwise_flatMap.1 hinc).2
  have hp' : l.files.Pairwise (fun a b => ∀ x ∈ a.pending, x ∉ b.pending) := by
    refine hp.imp ?_
    intro a b hab x hx hy
    exact absurd (hab x hx x hy) (Nat.lt_irrefl _)
  by_contra hne
  have : Std.Symm (fun a b : LogFile K => ∀ x ∈ a.pending, x ∉ b.pending) := ⟨fun a b hab x hx hy => hab x hy hx⟩
  exact hp'.forall hf hg hne r h1 h2

theorem LogInv.not_flushed {l : LogMgr K} {A B} (h : LogInv l A B) {f : LogFile K} (hf : f ∈ l.files)
    {r : Rec K} (h1 : r ∈ f.pending) : r ∉ A := by
  intro hA
  have hB : r ∈ B := by rw [h.pend]; exact List.mem_flatMap.2 ⟨f, hf, h1⟩
  exact absurd ((List.pairwise_append.1 h.inc).2.2 r hA r hB) (Nat.lt_irrefl _)

theorem written_mem {l : LogMgr K} {A B} (h : LogInv l A B) {f : LogFile K} (hf : f ∈ l.files) :
    FDB.written l f.num = f.disk := by
  have := h.file?_mem hf
  unfold LogMgr.file? at this
  unfold FDB.written
  rw [this]; rfl

theorem FReach.inv {s : FDB K S} {h n m} (hr : FReach s h n m) : FInv s.db.log s.dur h n m := by
  have pi : ∀ {s : FDB K S} {h n m}, FReach s h n m → ∃ A B, h = A ++ B ∧ PInv ⟨s.db, s.cands⟩ n A B :=
    fun hr => hr.preach.inv
  have lm : ∀ {l : LogMgr K} {A B}, LogInv l A B → l.lastSynced = NIL ∨ l.lastSynced ≤ l.maxNum :=
    fun h => h.lastS.imp id (fun h => h.2)
  induction hr with
  | init c hc =>
    refine ⟨⟨Nat.le_refl _, Nat.le_refl _⟩, fun h => absurd rfl h, ?_⟩
    intro f _ r hr; simp at hr
  | @set s h n m r se db' hr hfit hseq hse hs ih =>
    obtain ⟨A, B, rfl, hi⟩ := pi hr
    have hck : s.db.check .write = .ok := by
      unfold DB.setRecord at hs
      split at hs
      · next hc => exact absurd (congrArg Prod.fst hs) hc
      · next hc => simpa using hc
    have h0 : r.seq ≠ 0 := by
      intro e
      unfold DB.setRecord LogMgr.setSN at hs
      rw [hck] at hs
      have hrw : s.db.log.cfg.readOnly = false := hi.inv.log.rw
      simp [hrw, e] at hs
    obtain ⟨db'', hs', -, -, -, hp⟩ := hi.inv.set r se hfit hseq h0 hse hck
    simp only at hs'
    rw [hs] at hs'; cases hs'
    exact ih.same (hp.sameDisk hi.inv.log) (lm hi.inv.log) _
  | @batch s h n m b db' hr hfit hN hs ih =>
    obtain ⟨A, B, rfl, hi⟩ := pi hr
    have hck : s.db.check .write = .ok := by
      unfold DB.setRecordBatch at hs
      split at hs
      · next hc => exact absurd (congrArg Prod.fst hs) hc
      · next hc => simpa using hc
    rcases hi.inv.batch b hfit hN hck with ⟨-, -, db'', hs', -, -, hp⟩ | ⟨-, hs'⟩
    · simp only at hs'
      rw [hs] at hs'; cases hs'
      exact ih.same (hp.sameDisk ⟨_, _, hi.inv.log⟩) (lm hi.inv.log) _
    · simp only at hs'
      rw [hs] at hs'
      have := congrArg Prod.fst hs'
      simp only at this
      split at this <;> cases this
  | @syncOn s h n m db' hr hs ih =>
    obtain ⟨A, B, rfl, hi⟩ := pi hr
    have hl := hi.inv.log
    have e := hl.sync_eq hi.store
    have hs := (DB.sync_log hs).1
    obtain ⟨l'', e', hl', -⟩ := hl.sync
    simp only at e e'
    rw [hs] at e' e
    cases e'
    have e := congrArg Prod.snd e
    simp only at e
    have hdur : ∀ f' ∈ db'.log.files, (s.syncOn db'.log).dur f'.num = f'.disk := by
      intro f' hf'
      show (if s.db.log.syncFrom ≤ f'.num then _ else _) = _
      split
      · exact written_mem hl' hf'
      · next hc =>
        have h0 := hf'
        rw [e] at h0
        obtain ⟨f, hf, rfl⟩ := List.mem_map.1 h0
        have hn := (hl.syncOne_rel hf).num
        simp only at hn
        rw [hn] at hc ⊢
        have hid : s.db.log.syncOne f = f := by
          unfold LogMgr.syncOne; rw [if_neg (fun h => hc h.1)]
        rw [hid]
        by_cases hne : s.db.log.lastSynced = NIL
        · exfalso
          unfold LogMgr.syncFrom at hc
          rw [if_neg (by simpa using hne)] at hc
          exact hc (hl.num_range hf).1
        · unfold LogMgr.syncFrom at hc
          rw [if_pos hne] at hc
          exact ih.lo hne f hf (by omega)
    refine ⟨⟨Nat.le_refl _, Nat.le_refl _⟩, fun _ f hf _ => hdur f hf, ?_⟩
    intro f hf r _ hrs
    rw [hdur f hf]
    exact (List.mem_filter.1 hrs).1
  | @syncOff s h n m db' hr hls honce hs ih =>
    obtain ⟨A, B, rfl, hi⟩ := pi hr
    have hl := hi.inv.log
    have e := hl.sync_eq hi.store
    have hs := (DB.sync_log hs).1
    simp only at e
    rw [hs] at e
    have e := congrArg Prod.snd e
    simp only at e
    have hsf : s.db.log.syncFrom = s.db.log.maxNum := by
      unfold LogMgr.syncFrom; rw [hls, if_pos (Nat.ne_of_lt hl.numN)]
    refine ⟨⟨Nat.le_trans ih.le.1 ih.le.2, Nat.le_refl _⟩, ?_, ?_⟩
    · intro _ f' hf' hlt
      have hf0 : f' ∈ db'.log.files := hf'
      have hlt0 : f'.num < db'.log.lastSynced := hlt
      rw [e] at hf0 hlt0
      simp only at hlt0
      obtain ⟨f, hf, rfl⟩ := List.mem_map.1 hf0
      have hn := (hl.syncOne_rel hf).num
      simp only at hn
      rw [hn] at hlt0 ⊢
      have hid : s.db.log.syncOne f = f := by
        unfold LogMgr.syncOne; rw [if_neg (fun h => by omega)]
      rw [hid]
      exact ih.lo (by rw [hls]; exact Nat.ne_of_lt hl.numN) f hf (by omega)
    · intro f' hf' r hr hrs
      have hf0 : f' ∈ db'.log.files := hf'
      rw [e] at hf0
      obtain ⟨f, hf, rfl⟩ := List.mem_map.1 hf0
      have hn := (hl.syncOne_rel hf).num
      simp only at hn
      rw [hn]
      rw [(hi.store.syncOne hl hf).2.2.1] at hrs
      obtain ⟨M, hM⟩ := List.exists_mem_of_ne_nil _ hi.ne
      obtain ⟨F, G, hL, hn'⟩ := hi.cand M hM
      have hrn : r ∈ (A ++ B).take n := (List.take_prefix_take_left ih.le.1).subset hr
      rcases List.mem_append.1 (hn' r hrn) with h5 | h5
      · exact absurd h5 (hl.not_flushed hf hrs)
      · obtain ⟨g, hg, hrg⟩ := List.mem_flatMap.1 h5
        have := hl.pending_one hf (hL.sub hg) hrs (stored_sub_pending (hi.store.ok g (hL.sub hg)) hrg)
        subst this
        exact ih.saf f hf r hr hrg
  | @flush s h n m o q db' hr hp hsafe hs ih =>
    obtain ⟨A, B, rfl, hi⟩ := pi hr
    have hl := hi.inv.log
    unfold DB.flushLogs at hs
    split at hs
    · next hc => exact absurd (congrArg Prod.fst hs) hc
    have hmode : s.db.log.cfg.logSectionOnly = false := hi.inv.mode
    rw [if_neg (by simp [hmode])] at hs
    simp only at hs
    rcases hi.flushing hsafe hp with ⟨⟨e, h1, h2⟩, -⟩ | ⟨P, g, Q, x, hF, -, h1⟩
    · rw [h1] at hs; cases hs; exact absurd rfl h2
    rw [h1] at hs
    have hfiles : s.db.log.files = P ++ g :: Q := hF.files
    have hg : g ∈ s.db.log.files := by rw [hfiles]; simp
    have hQ : ∀ f ∈ Q, f ∈ s.db.log.files ∧ g.num < f.num := by
      intro f hf
      refine ⟨by rw [hfiles]; simp [hf], ?_⟩
      have := hl.order
      simp only at this
      rw [hfiles] at this
      exact ((List.pairwise_cons.1 (List.pairwise_append.1 this).2.1).1 f hf).num
    obtain ⟨f1, -⟩ := flushUpd_same g x o.beyondLastSync
    have hrel := hF.rel
    cases hs
    unfold LogMgr.flushed
    generalize ((if o.beyondLastSync = true then g.setSyncedSeqNum x else g).setFlushedSeqNum x) = g' at hrel f1 ⊢
    refine ⟨ih.le, ?_, ?_⟩
    · intro hne f hf hlt
      simp only at hne hf hlt
      by_cases hc : o.beyondLastSync = true ∧ g.num > s.db.log.lastSynced
      · rw [if_pos hc] at hlt
        rcases List.mem_cons.1 hf with rfl | hf
        · rw [hrel.num] at hlt; omega
        · have := (hQ f hf).2; omega
      · rw [if_neg hc] at hlt hne
        rcases List.mem_cons.1 hf with rfl | hf
        · rw [hrel.num] at hlt ⊢
          rw [f1]; exact ih.lo hne g hg hlt
        · exact ih.lo hne f (hQ f hf).1 hlt
    · intro f hf r hr hrs
      rcases List.mem_cons.1 hf with rfl | hf
      · rw [stored_flushed hrel f1] at hrs
        rw [hrel.num]
        exact ih.saf g hg r hr (List.mem_filter.1 hrs).1
      · exact ih.saf f (hQ f hf).1 r hr hrs
  | @mark s h n m hr ih =>
    obtain ⟨A, B, rfl, hi⟩ := pi hr
    have hl := hi.inv.log
    obtain ⟨-, φ, s2, s3⟩ := hi.store.mark hl
    have : SameDisk s.db.log s.db.log.checkpoint.1 := by
      simp only at s2
      rw [s2]
      refine ⟨rfl, Nat.le_refl _, ?_⟩
      intro f' hf'
      obtain ⟨f, hf, rfl⟩ := List.mem_map.1 hf'
      obtain ⟨a1, a2, a3⟩ := s3 f hf
      exact Or.inl ⟨f, hf, a1, a2, a3⟩
    have := ih.same this (lm hl) []
    rwa [List.append_nil] at this
  | maint _ _ ih => exact ih
  | flags _ _ _ ih => exact ih

/-- After a power failure. -/
theorem FReach.power {s : FDB K S} {h n m} (hr : FReach s h n m) {d : Disk K S} (hd : PowerLoss s d)
    (cfg : Cfg) (hc : cfg.logSectionOnly = false) :
    ∃ h', h.take m <+: h' ∧ h' <+: h ∧ ∀ k, (DB.reopen cfg d).getRecordByKey k = Spec.answerRec h' k := by
  obtain ⟨A, B, rfl, hi⟩ := hr.preach.inv
  have fi := hr.inv
  obtain ⟨F, G, hL, hn⟩ := hi.cand _ hd.mani
  have hl := hi.inv.log
  simp only at hl hL
  have hcase : ∀ f ∈ F,
      (∃ items tail, d.file f.num = some ⟨f.num, items, tail⟩ ∧ tail ≠ .bad ∧ s.dur f.num <+: items ∧ items <+: f.disk ∧
        found d.files f = above f.mem.flushedSeqNum (dataOf items)) ∨
      (d.file f.num = none ∧ s.dur f.num = [] ∧ found d.files f = []) := by
    intro f hf
    rcases hd.files f (hL.sub hf) with ⟨items, tail, a1, a2, a3, a4⟩ | ⟨a1, a2⟩
    · refine Or.inl ⟨items, tail, a1, a2, a3, a4, ?_⟩
      unfold Jungle.found
      unfold Disk.file at a1
      rw [a1]; rfl
    · refine Or.inr ⟨a1, a2, ?_⟩
      unfold Jungle.found
      unfold Disk.file at a1
      rw [a1]; rfl
  have hpre : ∀ f ∈ F, found d.files f <+: f.stored := by
    intro f hf
    rcases hcase f hf with ⟨items, tail, -, -, -, a4, a5⟩ | ⟨-, -, a3⟩
    · rw [a5]; exact above_prefix (dataOf_prefix a4)
    · rw [a3]; exact List.nil_prefix
  have hlo : ∀ f ∈ F, f.num < s.db.log.syncFrom → s.dur f.num = f.disk := by
    intro f hf hlt
    have hf := hL.sub hf
    unfold LogMgr.syncFrom at hlt
    split at hlt
    · next hne => exact fi.lo hne f hf hlt
    · have := (hl.num_range hf).1; omega
  suffices key : F.flatMap (found d.files) <+: B ∧ (A ++ B).take m <+: A ++ F.flatMap (found d.files) ∧
      ∀ k, (DB.reopen cfg d).getRecordByKey k = Spec.answerRec (A ++ F.flatMap (found d.files)) k from
    ⟨_, key.2.1, (List.prefix_append_right_inj A).2 key.1, key.2.2⟩
  refine hi.crash_found hL (m := m) ?_ hd.table s.db.log.syncFrom ?_ ?_ ?_ ?_ ?_ cfg hc
  · intro r hr
    have hrn : r ∈ (A ++ B).take n := (List.take_prefix_take_left fi.le.1).subset hr
    rcases List.mem_append.1 (hn r hrn) with h5 | h5
    · exact List.mem_append_left _ h5
    · apply List.mem_append_right
      obtain ⟨f, hf, hrf⟩ := List.mem_flatMap.1 h5
      refine List.mem_flatMap.2 ⟨f, hf, ?_⟩
      have hdur := fi.saf f (hL.sub hf) r hr hrf
      rcases hcase f hf with ⟨items, tail, -, -, a3, -, a5⟩ | ⟨-, a2, -⟩
      · rw [a5]
        exact List.mem_filter.2 ⟨(dataOf_prefix a3).subset hdur, (List.mem_filter.1 hrf).2⟩
      · rw [a2] at hdur; cases hdur
  · intro f hf x hx
    rcases hcase f hf with ⟨items, tail, a1, a2, -, a4, -⟩ | ⟨a1, -⟩
    · rw [a1] at hx; cases hx
      exact ⟨a2, List.Pairwise.sublist (dataOf_prefix a4).sublist (hi.store.ok f (hL.sub hf)).inc⟩
    · rw [a1] at hx; cases hx
  · intro f hf hlt
    rw [← hi.store.stored_lo hl (hL.sub hf) hlt]
    rcases hcase f hf with ⟨items, tail, -, -, a3, a4, a5⟩ | ⟨-, a2, a3⟩
    · rw [hlo f hf hlt] at a3
      have : items = f.disk := a4.eq_of_length_le a3.length_le
      rw [a5, this]; rfl
    · rw [hlo f hf hlt] at a2
      rw [a3]; unfold LogFile.stored above; rw [a2]; rfl
  · intro f hf _
    exact (hpre f hf).trans (stored_prefix (hi.store.ok f (hL.sub hf)) (hl.wf f (hL.sub hf)))
  · intro f hf hlt
    have := hpre f hf
    rw [hi.store.stored_hi (hL.sub hf) hlt] at this
    exact List.prefix_nil.1 this
  · intro f hf hmn hnone
    rcases hcase f hf with ⟨items, tail, a1, -⟩ | ⟨-, a2, a3⟩
    · rw [a1] at hnone; cases hnone
    · refine ⟨?_, a3⟩
      by_contra hlt
      have hlt : f.num < s.db.log.syncFrom := by
        omega
      have := hi.missing (hL.sub hf) hmn (by rw [← hlo f hf hlt]; exact a2)
      simp only at this
      omega

end Jungle
