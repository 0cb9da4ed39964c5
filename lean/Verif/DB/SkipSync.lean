/-
  `skipManifestSync` (include/libjungle/db_config.h:618-624): the log manifest is stored only by the first
  sync after a log file was added, and by flushes.
-/
import Verif.DB.SessionLemmas

set_option linter.unusedSectionVars false

namespace Jungle
open Spec
variable {K : Type} [LinearOrder K] {S : TableSys K}

/-- A handle with `skipManifestSync`: the manifest on disk, and `needSkippedManiSync`
    (src/log_mgr.h:467). -/
structure SkipDB (K : Type) [LinearOrder K] (S : TableSys K) where
  db : DB K S
  mani : PMani
  need : Bool

namespace SkipDB

/-- `LogMgr::init` without a manifest (src/log_mgr.cc:89-165): the manifest is stored and the flag is
    set. -/
def init (S : TableSys K) (c : Cfg) : SkipDB K S := ⟨DB.init S c, (LogMgr.init c : LogMgr K).persist, true⟩

/-- After a write: adding a log file does not store the manifest (src/log_mgr.cc:529-532) and sets the
    flag (src/log_mgr.cc:547-548). -/
def wrote (s : SkipDB K S) (db' : DB K S) : SkipDB K S :=
  ⟨db', s.mani, s.need || decide (db'.log.maxNum ≠ s.db.log.maxNum)⟩

/-- The end of `LogMgr::syncInternal` (src/log_mgr.cc:1303-1309), with fsync. -/
def stored (s : SkipDB K S) (l' : LogMgr K) : SkipDB K S :=
  ⟨{ s.db with log := l' }, if s.need then l'.persist else s.mani, false⟩

/-- `LogMgr::init` with a manifest (src/log_mgr.cc:89-116): the flag is not set. -/
def reopen (cfg : Cfg) (d : Disk K S) : SkipDB K S := ⟨DB.reopen cfg d, d.mani, false⟩

end SkipDB

/-- `SkipSession s h n`: a sequence of calls, of closing and reopening and of crashes, with
    `skipManifestSync`, leads to `s`; `h` lists the accepted records that are left, and the first `n` of
    them were accepted before the last sync that returned OK.  No sync before the first write
    (`C52_empty_sync_violation`), and no flush of records that are not synced. -/
inductive SkipSession : SkipDB K S → List (Rec K) → Nat → Prop
  | init (c : Cfg) : c.Plain → SkipSession (SkipDB.init S c) [] 0
  | set {s h n} (r : Rec K) (se : Bool) {db'} : SkipSession s h n → s.db.Fits 1 → s.db.FreshSeq r.seq →
      (s.db.getMaxSeqNum = none → se = false) → s.db.setRecord r se = (.ok, db') →
      SkipSession (s.wrote db') (h ++ number (s.db.getMaxSeqNum.getD 0) [r]) n
  | batch {s h n} (b : List (Rec K)) {db'} : SkipSession s h n → s.db.Fits b.length → (∀ r ∈ b, r.seq ≤ NIL) →
      s.db.setRecordBatch b = (.ok, db') →
      SkipSession (s.wrote db') (h ++ number (s.db.getMaxSeqNum.getD 0) b) n
  /-- a completed sync with fsync -/
  | sync {s h n db'} : SkipSession s h n → h ≠ [] → s.db.sync = (.ok, db') → SkipSession (s.stored db'.log) h h.length
  | flush {s h n} (o : LogMgr.FlushOpts) (m : Nat) {db'} : SkipSession s h n → o.purgeOnly = false →
      o.beyondLastSync = false → s.db.SafeFlush o m → s.db.flushLogs o m = (.ok, db') →
      SkipSession ⟨db', db'.log.persist, s.need⟩ h n
  /-- a checkpoint before its sync -/
  | mark {s h n} : SkipSession s h n → SkipSession { s with db := { s.db with log := s.db.log.checkpoint.1 } } h n
  /-- a completed checkpoint -/
  | checkpoint {s h n db' c} : SkipSession s h n → h ≠ [] → s.db.checkpoint = (.ok, db', c) →
      SkipSession (s.stored db'.log) h h.length
  | maint {s h n t} : SkipSession s h n → S.maint s.db.table t → SkipSession { s with db := { s.db with table := t } } h n
  | flags {s h n} (c r : Bool) : SkipSession s h n →
      SkipSession { s with db := { s.db with closing := c, rollbackInProgress := r } } h n
  | reopen {s h n} (cfg : Cfg) (d : Disk K S) (q : Nat) : SkipSession s h n → cfg.Plain → Left s.db [s.mani] d →
      (DB.reopen cfg d).getMaxSeqNum = some q →
      SkipSession (SkipDB.reopen cfg d) (h.filter (fun r => decide (r.seq ≤ q)))
        (h.filter (fun r => decide (r.seq ≤ q))).length

/-- The newest log file is the last synced one, and has something synced. -/
def LogMgr.Settled (l : LogMgr K) : Prop := l.lastSynced = l.maxNum ∧ l.getLastSyncedSeqNum ≠ none

theorem LogInv.settled_iff {l : LogMgr K} {A B} (h : LogInv l A B) {fs g} (hg : l.files = fs ++ [g]) :
    l.Settled ↔ l.lastSynced = l.maxNum ∧ g.mem.syncedSeqNum ≠ NIL := by
  unfold LogMgr.Settled LogMgr.getLastSyncedSeqNum
  refine and_congr_right (fun hls => ?_)
  rw [hls, ← h.last_num hg, h.file?_mem (by rw [hg]; simp)]
  simp

theorem PutStep.settled {l l' : LogMgr K} {A B A' B'} (h : LogInv l A B) (h' : LogInv l' A' B') (hp : PutStep l l')
    (hm : l'.maxNum = l.maxNum) (hs : l.Settled) : l'.Settled := by
  cases hp with
  | @same fs f m' r q hf hput h0 hN hgt =>
    rw [h.settled_iff hf] at hs
    rw [h'.settled_iff (fs := fs) (g := { f with mem := m' }) rfl]
    exact ⟨hs.1, by rw [hput.synced]; exact hs.2⟩
  | @new fs f m' r q hf hmx hput h0 hN =>
    have : l.maxNum + 1 = l.maxNum := hm
    omega

theorem PutSteps.settled {l l' : LogMgr K} (hp : PutSteps l l') (h : ∃ A B, LogInv l A B) (hs : l.Settled) :
    l'.Settled := by
  induction hp with
  | refl => exact hs
  | step h1 h2 h3 _ ih =>
    obtain ⟨A, B, h⟩ := h
    obtain ⟨A', B', h'⟩ := h3
    exact ih ⟨A', B', h'⟩ (h1.settled h h' h2 hs)

theorem LogInv.settled_mark {l : LogMgr K} {A B A' B'} (hl : LogInv l A B) (hl' : LogInv l.checkpoint.1 A' B')
    (hset : l.Settled) : l.checkpoint.1.Settled := by
  obtain ⟨fs, y, hy⟩ := hl.split_last
  have hfi : l.file? l.maxNum = some y := by
    rw [← hl.last_num hy]; exact hl.file?_mem (by rw [hy]; simp)
  have e : l.checkpoint.1 = { l with files := fs ++ [{ y with mem := y.mem.checkpoint.1, coldChk := y.coldChk || y.immutable }] } := by
    unfold LogMgr.checkpoint
    simp only [hfi]
    exact hl.setFile_last hy rfl
  rw [hl.settled_iff hy] at hset
  rw [hl'.settled_iff (fs := fs) (g := { y with mem := y.mem.checkpoint.1, coldChk := y.coldChk || y.immutable }) (by rw [e])]
  refine ⟨by rw [e]; exact hset.1, ?_⟩
  have : y.mem.checkpoint.1.syncedSeqNum = y.mem.syncedSeqNum := by
    unfold MemTable.checkpoint; split <;> (try split) <;> rfl
  simp only [this]; exact hset.2

theorem Session.settled_sync {db : DB K S} {cs : List PMani} {h : List (Rec K)} {n : Nat} (hs : Session ⟨db, cs⟩ h n)
    (hne : h ≠ []) {l' : LogMgr K} (hsy : db.log.sync = (.ok, l')) : l'.Settled := by
  have hs' : Session ⟨{ db with closing := false, rollbackInProgress := false }, cs⟩ h n := Session.flags false false hs
  have hck : ({ db with closing := false, rollbackInProgress := false } : DB K S).sync =
      (.ok, { db with closing := false, rollbackInProgress := false, log := l' }) := by
    unfold DB.sync DB.check
    simp [hsy]
  obtain ⟨hL, -⟩ := hs'.closed hne hck
  exact ⟨hL.synced, hL.once⟩

/-- With `skipManifestSync` the guarantees of a session hold, and when the flag is not set the manifest on
    disk lists all log files. -/
theorem SkipSession.session {s : SkipDB K S} {h : List (Rec K)} {n : Nat} (hr : SkipSession s h n) :
    Session ⟨s.db, [s.mani]⟩ h n ∧ (s.need = false → s.db.log.Settled) := by
  have one : ∀ {db : DB K S} {cs : List PMani} {m h n}, Session ⟨db, cs⟩ h n → m ∈ cs → Session ⟨db, [m]⟩ h n :=
    fun hs hm => Session.fewer hs (by simpa using hm) (by simp)
  induction hr with
  | init c hc => exact ⟨Session.init c hc, fun h => nomatch h⟩
  | @set s h n r se db' _ hfit hseq hse hs ih =>
    obtain ⟨h1, h2⟩ := ih
    have h3 := Session.set r se h1 hfit hseq hse hs
    refine ⟨one h3 (by split <;> simp [SkipDB.wrote]), ?_⟩
    intro hn
    simp only [SkipDB.wrote, Bool.or_eq_false_iff, decide_eq_false_iff_not, Decidable.not_not] at hn
    obtain ⟨A, B, rfl, hi⟩ := h1.preach.1.inv
    have hck : s.db.check .write = .ok := by
      unfold DB.setRecord at hs
      split at hs
      · next hc => exact absurd (congrArg Prod.fst hs) hc
      · next hc => simpa using hc
    have h0 : r.seq ≠ 0 := by
      intro e
      unfold DB.setRecord LogMgr.setSN at hs
      rw [hck] at hs
      have hrw : s.db.log.cfg.readOnly = false := hi.inv.log.rw
      simp [hrw, e] at hs
    obtain ⟨db'', hs', hi', -, he, hp⟩ := hi.inv.set r se hfit hseq h0 hse hck
    simp only at hs'
    rw [hs] at hs'; cases hs'
    exact hp.settled hi.inv.log hi'.log hn.2 (h2 hn.1)
  | @batch s h n b db' _ hfit hN hs ih =>
    obtain ⟨h1, h2⟩ := ih
    refine ⟨Session.batch b h1 hfit hN hs, ?_⟩
    intro hn
    simp only [SkipDB.wrote, Bool.or_eq_false_iff, decide_eq_false_iff_not, Decidable.not_not] at hn
    obtain ⟨A, B, rfl, hi⟩ := h1.preach.1.inv
    have hck : s.db.check .write = .ok := by
      unfold DB.setRecordBatch at hs
      split at hs
      · next hc => exact absurd (congrArg Prod.fst hs) hc
      · next hc => simpa using hc
    rcases hi.inv.batch b hfit hN hck with ⟨-, -, db'', hs', hi', he, hp⟩ | ⟨-, hs'⟩
    · simp only at hs'
      rw [hs] at hs'; cases hs'
      exact hp.settled ⟨_, _, hi.inv.log⟩ (h2 hn.1)
    · simp only at hs'
      rw [hs] at hs'
      have := congrArg Prod.fst hs'
      simp only at this
      split at this <;> cases this
  | @sync s h n db' _ hne hs ih =>
    obtain ⟨h1, h2⟩ := ih
    have hlog : s.db.log.sync = (.ok, db'.log) ∧ db' = { s.db with log := db'.log } := by
      obtain ⟨A, B, -, hi⟩ := h1.preach.1.inv
      obtain ⟨l', e, -⟩ := hi.inv.log.sync
      simp only at e
      unfold DB.sync at hs
      split at hs
      · next hc => exact absurd (congrArg Prod.fst hs) hc
      · rw [e] at hs
        cases hs
        exact ⟨e, rfl⟩
    refine ⟨?_, fun _ => h1.settled_sync hne hlog.1⟩
    unfold SkipDB.stored
    cases hn : s.need with
    | true =>
      have := Session.sync h1 hs
      rw [hlog.2] at this
      simpa using this
    | false => simpa using Session.syncSkip h1 (h2 hn).1 (h2 hn).2 hlog.1
  | @flush s h n o m db' _ hp hb hsafe hs ih =>
    obtain ⟨h1, h2⟩ := ih
    refine ⟨Session.flush o m h1 hp hb hsafe hs, ?_⟩
    intro hn
    have hset := h2 hn
    obtain ⟨A, B, rfl, hi⟩ := h1.preach.1.inv
    obtain ⟨-, D, B', -, hi', -⟩ := hi.inv.flush hp hsafe.flushSeq hs
    unfold DB.flushLogs at hs
    split at hs
    · next hc => exact absurd (congrArg Prod.fst hs) hc
    · rw [if_neg (by have := hi.inv.mode; simp only at this; simp [this])] at hs
      rcases hi.flushing hsafe hp with ⟨⟨e, h1, -⟩, -⟩ | ⟨P, g, Q, x, h1, -, h2⟩
      · simp only [h1] at hs
        cases hs; exact hset
      · simp only [h2] at hs
        have := congrArg Prod.snd hs
        simp only at this
        subst this
        have hl' : LogInv (s.db.log.flushed o x g Q) (A ++ D) B' := hi'.log
        show (s.db.log.flushed o x g Q).Settled
        obtain ⟨fs, y, hy⟩ := hi.inv.log.split_last
        have hl := hi.inv.log
        simp only at hy hl
        rw [hl.settled_iff hy] at hset
        have hfi := h1.files
        rw [hy] at hfi
        have hfsync : (g.setFlushedSeqNum x).mem.syncedSeqNum = g.mem.syncedSeqNum := by
          unfold LogFile.setFlushedSeqNum; split <;> (try split) <;> rfl
        have hff : (s.db.log.flushed o x g Q).files = g.setFlushedSeqNum x :: Q := by
          unfold LogMgr.flushed; simp [hb]
        have hls : (s.db.log.flushed o x g Q).lastSynced = s.db.log.lastSynced := by
          unfold LogMgr.flushed; simp [hb]
        rcases List.eq_nil_or_concat Q with rfl | ⟨Q', z, rfl⟩
        · have hyg : y = g := by
            have := congrArg List.getLast? hfi
            simpa using this
          subst hyg
          rw [hl'.settled_iff (fs := []) (g := y.setFlushedSeqNum x) (by rw [hff]; rfl), hls, hfsync]
          exact hset
        · rw [List.concat_eq_append] at hfi hff
          have hyz : y = z := by
            have : fs ++ [y] = (P ++ g :: Q') ++ [z] := by rw [hfi]; simp
            exact (List.append_inj' this rfl).2 |> List.singleton_inj.1
          subst hyz
          rw [hl'.settled_iff (fs := g.setFlushedSeqNum x :: Q') (g := y) (by simpa using hff), hls]
          exact hset
  | @mark s h n _ ih =>
    obtain ⟨A, B, -, hi⟩ := ih.1.preach.1.inv
    exact ⟨Session.mark ih.1, fun hn => hi.inv.log.settled_mark hi.mark.inv.log (ih.2 hn)⟩
  | @checkpoint s h n db' c hr0 hne hs ih =>
    obtain ⟨h1, h2⟩ := ih
    have h1' := Session.mark h1
    obtain ⟨A, B, -, hi⟩ := h1.preach.1.inv
    have hlog : s.db.log.checkpoint.1.sync = (.ok, db'.log) ∧ db' = { s.db with log := db'.log } := by
      unfold DB.checkpoint at hs
      obtain ⟨l', e, -⟩ := hi.mark.inv.log.sync
      simp only at e
      simp only [e] at hs
      cases hs
      exact ⟨e, rfl⟩
    refine ⟨?_, fun _ => h1'.settled_sync hne hlog.1⟩
    unfold SkipDB.stored
    cases hn : s.need with
    | true =>
      have := Session.checkpoint h1 hs
      rw [hlog.2] at this
      simpa using this
    | false =>
      have hset := hi.inv.log.settled_mark hi.mark.inv.log (h2 hn)
      simpa using Session.syncSkip h1' hset.1 hset.2 hlog.1
  | maint _ ht ih => exact ⟨Session.maint ih.1 ht, ih.2⟩
  | flags c r _ ih => exact ⟨Session.flags c r ih.1, ih.2⟩
  | @reopen s h n cfg d q _ hc hd hm ih =>
    have h1 := Session.reopen cfg d q ih.1 hc hd hm
    refine ⟨h1, fun _ => ?_⟩
    obtain ⟨A, B, -, hi⟩ := ih.1.preach.1.inv
    have hR : Reopens s.db [s.mani] cfg d q := ⟨hd, hc, ih.1.preach.2, hm⟩
    have hD := hi.durable hR
    have hl := hi.inv.log
    simp only at hl
    have hlog : (DB.reopen cfg d).log = s.db.log.reloaded cfg d.files := hD.recover hl cfg
    show (DB.reopen cfg d).log.Settled
    rw [hlog]
    have hi' := hD.inv hl hc.rw hc.noOverwrite hc.entries
    obtain ⟨fs, y, hy⟩ := hl.split_last
    rw [hi'.settled_iff (fs := fs.map (reload d.files)) (g := reload d.files y) (by simp [LogMgr.reloaded, hy])]
    refine ⟨rfl, ?_⟩
    have hyf : y ∈ s.db.log.files := by rw [hy]; simp
    have hRy := hD.reloaded hl hyf
    have hb := hRy.bounds (hl.wf y hyf)
    rw [hRy.synced]; omega

end Jungle
