/-
  A session with crashes inside flushes is followed by a session without: same log, same manifests, same
  history; the tables differ at most in keys that have a record in the log that is on disk and is not
  marked as flushed.
-/
import Verif.DB.TornSession
import Verif.DB.SessionLemmas

set_option linter.unusedSectionVars false

namespace Jungle
open Spec
variable {K : Type} [LinearOrder K] {S : TableSys K}

/-- A record of the key is in a log file on disk and not marked as flushed. -/
def LogMgr.OnDisk (l : LogMgr K) (k : K) : Prop := ∃ f ∈ l.files, ∃ r ∈ f.stored, r.isCmd = false ∧ r.key = k

/-- `db` and a session with table `t0` in step. -/
structure Sim (db : DB K S) (cs : List PMani) (h : List (Rec K)) (n : Nat) (t0 : S.T) : Prop where
  ghost : Session ⟨{ db with table := t0 }, cs⟩ h n
  inv : S.Inv db.table
  agree : ∀ k, ¬ db.log.OnDisk k → vis (S.get db.table k) = vis (S.get t0 k)

theorem LogMgr.OnDisk.map {l l' : LogMgr K} (φ : LogFile K → LogFile K)
    (hf : ∀ f ∈ l.files, φ f ∈ l'.files) (hs : ∀ f ∈ l.files, ∀ r ∈ f.stored, r ∈ (φ f).stored) {k : K} (h : l.OnDisk k) :
    l'.OnDisk k := by
  obtain ⟨f, h1, r, h2, h3⟩ := h
  exact ⟨φ f, hf f h1, r, hs f h1 r h2, h3⟩

theorem LogMgr.OnDisk.put {l l' : LogMgr K} {A B} (h : LogInv l A B) (hp : PutStep l l') {k : K} (hk : l.OnDisk k) :
    l'.OnDisk k := by
  obtain ⟨-, -, φ, N, e3, e4, -⟩ := hp.shape h
  refine hk.map φ (fun f hf => ?_) (fun f hf r hr => ?_)
  · rw [e3]; exact List.mem_append_left _ (List.mem_map_of_mem hf)
  · rw [stored_congr (e4 f hf).2.2 (e4 f hf).2.1]; exact hr

theorem LogMgr.OnDisk.puts {l l' : LogMgr K} (hp : PutSteps l l') {k : K} (hl : ∃ A B, LogInv l A B) (hk : l.OnDisk k) :
    l'.OnDisk k := by
  induction hp with
  | refl => exact hk
  | step h1 _ h2 _ ih =>
    obtain ⟨A, B, hl⟩ := hl
    exact ih h2 (hk.put hl h1)

theorem stored_pending {f : LogFile K} (h : StoreOk f) {r : Rec K} (hr : r ∈ f.stored) : r ∈ f.pending := by
  unfold LogFile.stored above at hr
  obtain ⟨h1, h2⟩ := List.mem_filter.1 hr
  exact List.mem_filter.2 ⟨h.sub r h1, h2⟩

theorem LogMgr.OnDisk.sync {l : LogMgr K} {A B} (h : LogInv l A B) (s : SInv l) {k : K} (hk : l.OnDisk k) :
    l.sync.2.OnDisk k := by
  have e := congrArg Prod.snd (h.sync_eq s)
  simp only [] at e
  rw [e]
  refine hk.map l.syncOne (fun f hf => List.mem_map_of_mem hf) (fun f hf r hr => ?_)
  rw [(s.syncOne h hf).2.2.1]
  exact stored_pending (s.ok f hf) hr

theorem LogMgr.OnDisk.mark {l : LogMgr K} {A B} (h : LogInv l A B) {k : K} (hk : l.OnDisk k) :
    l.checkpoint.1.OnDisk k := by
  unfold LogMgr.checkpoint
  cases hf : l.file? l.maxNum with
  | none => exact hk
  | some g =>
    have hg : g ∈ l.files := List.mem_of_find?_eq_some hf
    refine hk.map (l' := l.setFile { g with mem := g.mem.checkpoint.1, coldChk := g.coldChk || g.immutable })
      (fun x => if x.num == g.num then { g with mem := g.mem.checkpoint.1, coldChk := g.coldChk || g.immutable } else x)
      (fun f hf => List.mem_map_of_mem hf) (fun f hf r hr => ?_)
    show r ∈ (if f.num == g.num then _ else _ : LogFile K).stored
    split
    · next e =>
      have : f = g := h.same_num hf hg (by simpa using e)
      subst this
      have e2 : LogFile.stored { f with mem := f.mem.checkpoint.1, coldChk := f.coldChk || f.immutable } = f.stored := by
        refine stored_congr rfl ?_
        show f.mem.checkpoint.1.flushedSeqNum = _
        unfold MemTable.checkpoint; split <;> (try split) <;> rfl
      rw [e2]; exact hr
    · exact hr

theorem LogMgr.flush_indep {T : Type} (l : LogMgr K) (o : LogMgr.FlushOpts) (m : Nat) (t t0 : T)
    (f : T → List (Rec K) → List Nat → T) :
    (l.flush o m t f).1 = (l.flush o m t0 f).1 ∧ (l.flush o m t f).2.1 = (l.flush o m t0 f).2.1 := by
  unfold LogMgr.flush
  split
  · exact ⟨rfl, rfl⟩
  · split <;> exact ⟨rfl, rfl⟩

theorem LogMgr.flush_table {T : Type} {l : LogMgr K} {o : LogMgr.FlushOpts} {m : Nat} (t : T)
    (f : T → List (Rec K) → List Nat → T) {lnFrom lnTo s} {L : List (LogFile K)} (hm : m ≠ 0) (hp : o.purgeOnly = false)
    (hr : l.flushRange o m = .ok (lnFrom, lnTo, s))
    (hL : l.files.filter (fun f => decide (lnFrom ≤ f.num ∧ f.num ≤ lnTo)) = L) :
    (l.flush o m t f).2.2 = if LogMgr.gather s o.beyondLastSync L = [] then t
      else f t (LogMgr.gather s o.beyondLastSync L) (LogMgr.gatherCheckpoints s L) := by
  unfold LogMgr.flush
  rw [if_neg hm, hr]
  simp only [hL, hp, true_and, ne_eq, ite_not]

theorem DB.setRecord_retable (db : DB K S) (t : S.T) (r : Rec K) (se : Bool) :
    DB.setRecord { db with table := t } r se = ((db.setRecord r se).1, { (db.setRecord r se).2 with table := t }) := by
  unfold DB.setRecord
  rw [show DB.check { db with table := t } .write = db.check .write from rfl]
  split <;> rfl

theorem DB.setRecordBatch_retable (db : DB K S) (t : S.T) (b : List (Rec K)) :
    DB.setRecordBatch { db with table := t } b =
      ((db.setRecordBatch b).1, { (db.setRecordBatch b).2 with table := t }) := by
  unfold DB.setRecordBatch
  rw [show DB.check { db with table := t } .write = db.check .write from rfl]
  split <;> rfl

theorem DB.sync_retable (db : DB K S) (t : S.T) :
    DB.sync { db with table := t } = (db.sync.1, { db.sync.2 with table := t }) := by
  unfold DB.sync
  rw [show DB.check { db with table := t } .flush = db.check .flush from rfl]
  split <;> rfl

/-- What a flush of synced records hands over is on disk, and what it leaves stays there. -/
theorem PInv.handed {db : DB K S} {cs : List PMani} {n : Nat} {A B : List (Rec K)} (h : PInv ⟨db, cs⟩ n A B)
    {o : LogMgr.FlushOpts} (hb : o.beyondLastSync = false) {P g Q s} (hF : Flushing db o A B P Q g s) :
    Increasing (LogMgr.gather s o.beyondLastSync (P ++ [g])) ∧
    (∀ r ∈ LogMgr.gather s o.beyondLastSync (P ++ [g]), r.isCmd = false → db.log.OnDisk r.key) ∧
    ∀ k, db.log.OnDisk k → (db.log.flushed o s g Q).OnDisk k ∨
      lastWrite (LogMgr.gather s o.beyondLastSync (P ++ [g])) k ≠ none := by
  have hl := h.inv.log
  have hst := h.store
  simp only [] at hl hst
  obtain ⟨g', hg', hrel, hfs, hsN, hR, hB⟩ := hF.exact hl
  have hg : g ∈ db.log.files := by rw [hF.files]; simp
  have hsync : db.log.lastSynced ≠ NIL ∧ g.num ≤ db.log.lastSynced := by
    rcases hF.sync with h4 | h4
    · rw [hb] at h4; cases h4
    · exact h4
  have hsf : db.log.syncFrom = db.log.lastSynced := by unfold LogMgr.syncFrom; rw [if_pos hsync.1]
  have hsafe : g.mem.syncedSeqNum ≠ NIL ∧ s ≤ g.mem.syncedSeqNum := by
    rcases hF.safe with h4 | h4
    · exact h4.2
    · rw [hb] at h4; cases h4.1
  have ho := hl.order
  rw [hF.files] at ho
  have ho1 := List.pairwise_append.1 ho
  have hPn : ∀ f ∈ P, f.num < g.num := fun f hfP => (ho1.2.2 f hfP g (by simp)).num
  have hPf : ∀ f ∈ P, f ∈ db.log.files := fun f hfP => by rw [hF.files]; simp [hfP]
  have hdisk : g'.disk = g.disk := by
    rw [hg', if_neg (by simp [hb])]
    unfold LogFile.setFlushedSeqNum; split <;> (try split) <;> rfl
  generalize hD : LogMgr.gather s o.beyondLastSync (P ++ [g]) = R at hR hB ⊢
  refine ⟨?_, ?_, ?_⟩
  · have := (List.pairwise_append.1 hl.inc).2.1
    rw [hB] at this
    exact (List.pairwise_append.1 this).1
  · intro r hr hcm
    rw [hR] at hr
    rcases List.mem_append.1 hr with hr | hr
    · obtain ⟨f, hf, hrf⟩ := List.mem_flatMap.1 hr
      refine ⟨f, hPf f hf, r, ?_, hcm, rfl⟩
      rw [hst.stored_lo hl (hPf f hf) (by have := hPn f hf; omega)]
      exact hrf
    · refine ⟨g, hg, r, ?_, hcm, rfl⟩
      unfold LogFile.moved at hr
      obtain ⟨h1, h2⟩ := List.mem_filter.1 hr
      rw [(hst.ok g hg).eq hsafe.1, List.mem_filter]
      rw [hfs, Bool.and_eq_true, decide_eq_true_eq] at h2
      exact ⟨h1, by simpa using (by omega : r.seq ≤ g.mem.syncedSeqNum)⟩
  · rintro k ⟨f, hf, r, hr, hk⟩
    have hin : r ∈ R → lastWrite R k ≠ none := by
      intro hrR hn
      unfold lastWrite at hn
      rw [List.getLast?_eq_none_iff, List.filter_eq_nil_iff] at hn
      exact hn r hrR (by simpa using hk)
    rw [hF.files] at hf
    rcases List.mem_append.1 hf with hfP | hf
    · right
      apply hin
      rw [hR]
      refine List.mem_append_left _ (List.mem_flatMap.2 ⟨f, hfP, stored_pending (hst.ok f (hPf f hfP)) hr⟩)
    · rcases List.mem_cons.1 hf with rfl | hfQ
      · have hp := stored_pending (hst.ok f hg) hr
        by_cases hle : r.seq ≤ s
        · right
          apply hin
          rw [hR]
          refine List.mem_append_right _ (List.mem_filter.2 ⟨hp, ?_⟩)
          rw [hfs, valid_iff.2 hsN]; simpa using hle
        · left
          refine ⟨g', ?_, r, ?_, hk⟩
          · show g' ∈ _ :: Q
            rw [hg']; exact List.mem_cons_self
          · unfold LogFile.stored above
            rw [hdisk, hfs, List.mem_filter]
            unfold LogFile.stored above at hr
            exact ⟨(List.mem_filter.1 hr).1, by simp [hle]⟩
      · left
        exact ⟨f, List.mem_cons_of_mem _ hfQ, r, hr, hk⟩

theorem PInv.onDisk_reopen {db : DB K S} {cs : List PMani} {n : Nat} {A B : List (Rec K)} (hi : PInv ⟨db, cs⟩ n A B)
    {cfg : Cfg} {d : Disk K S} {q : Nat} (hd : Reopens db cs cfg d q) {k : K} (hk : db.log.OnDisk k) :
    (DB.reopen cfg d).log.OnDisk k := by
  have hl := hi.inv.log
  have hD := hi.durable hd
  have hlog : (DB.reopen cfg d).log = db.log.reloaded cfg d.files := hD.recover hl cfg
  rw [hlog]
  refine hk.map (fun f => reload d.files f) (fun f hf => List.mem_map_of_mem hf) (fun f hf r hr => ?_)
  obtain ⟨items, i1, i2, i3⟩ := hd.files f hf
  obtain ⟨items', j1, j2, j3, j4⟩ := hD.disk f hf
  rw [show d.files.find? _ = d.file f.num from rfl, i1] at j1
  obtain rfl : items = items' := by simpa using j1
  obtain ⟨hR, hdk, -⟩ := reload_ok i1 j2 j3 j4 (hl.wf f hf).sorted
  unfold LogFile.stored above at hr ⊢
  rw [hdk, hR.flushed, List.mem_filter]
  exact ⟨(dataOf_prefix i2).subset (List.mem_filter.1 hr).1, (List.mem_filter.1 hr).2⟩

theorem Left.retable {db : DB K S} {cs : List PMani} {d : Disk K S} (h : Left db cs d) (t : S.T) :
    Left { db with table := t } cs { d with table := t } :=
  ⟨h.mani, rfl, h.synced, h.once, h.files⟩

/-- The tables after a crash inside a flush: a key without record on disk in the log reads as before. -/
theorem LeftInFlush.table_ok {db : DB K S} {cs : List PMani} {o : LogMgr.FlushOpts} {m : Nat} {d : Disk K S}
    (hd : LeftInFlush db cs o m d) (hinv : S.Inv db.table) {n : Nat} {A B : List (Rec K)} {t0 : S.T}
    (hi : PInv ⟨{ db with table := t0 }, cs⟩ n A B) :
    S.Inv d.table ∧ ∀ k, ¬ db.log.OnDisk k → vis (S.get d.table k) = vis (S.get db.table k) := by
  obtain ⟨lnFrom, lnTo, s, hr, ht⟩ := hd.table
  have hsafe : DB.SafeFlush { db with table := t0 } o m := hd.safe
  rcases hi.flushing hsafe hd.normal with ⟨-, h1 | ⟨e, h1⟩⟩ | ⟨P, g, Q, s', hF, ⟨h1, h2⟩, h3⟩
  · exact absurd h1 hd.begun
  · rw [show LogMgr.flushRange _ o m = _ from hr] at h1; cases h1
  have h1' : db.log.flushRange o m = .ok (db.log.minNum, g.num, s') := h1
  rw [hr] at h1'
  obtain ⟨rfl, rfl, rfl⟩ : lnFrom = db.log.minNum ∧ lnTo = g.num ∧ s = s' := by
    injection h1' with e
    exact ⟨congrArg Prod.fst e, congrArg (fun x => x.2.1) e, congrArg (fun x => x.2.2) e⟩
  have h2' : db.log.files.filter (fun f => decide (db.log.minNum ≤ f.num ∧ f.num ≤ g.num)) = P ++ [g] := h2
  obtain ⟨hinc, hon, -⟩ := hi.handed hd.synced hF
  have hno : ∀ k, ¬ db.log.OnDisk k → lastWrite (LogMgr.gather s o.beyondLastSync (P ++ [g])) k = none := by
    intro k hk
    unfold lastWrite
    rw [List.getLast?_eq_none_iff, List.filter_eq_nil_iff]
    intro r hrR he
    have : r.isCmd = false ∧ r.key = k := by simpa using he
    exact hk (this.2 ▸ hon r hrR this.1)
  rcases ht with ht | ht
  · rw [h2'] at ht
    obtain ⟨a1, a2⟩ := S.torn_ok _ _ _ _ hinv hinc ht
    refine ⟨a1, fun k hk => ?_⟩
    rcases a2 k with h4 | h4
    · exact h4
    · rw [h4, S.get_setBatch _ _ _ k hinv hinc, hno k hk]
  · rw [LogMgr.flush_table _ _ hd.begun hd.normal hr h2'] at ht
    rw [ht]
    refine ⟨?_, fun k hk => ?_⟩
    · split
      · exact hinv
      · exact S.inv_setBatch _ _ _ hinv hinc
    · rw [get_setBatch_ite hinv hinc, hno k hk]

/-- A reopening, with whatever tables agree. -/
theorem Sim.reopen {db : DB K S} {cs : List PMani} {h : List (Rec K)} {n : Nat} {t0 : S.T} (hs : Sim db cs h n t0)
    {cfg : Cfg} {d : Disk K S} {q : Nat} (hc : cfg.Plain) (hd : Left db cs { d with table := db.table })
    (hm : (DB.reopen cfg d).getMaxSeqNum = some q) (hinv : S.Inv d.table)
    (hag : ∀ k, ¬ db.log.OnDisk k → vis (S.get d.table k) = vis (S.get t0 k)) :
    Sim (DB.reopen cfg d) [d.mani] (h.filter (fun r => decide (r.seq ≤ q)))
        (h.filter (fun r => decide (r.seq ≤ q))).length (S.reopen t0) := by
  have hl : Left { db with table := t0 } cs { d with table := t0 } := hd.retable t0
  have hg := Session.reopen cfg { d with table := t0 } q hs.ghost hc hl hm
  obtain ⟨hp, hw⟩ := hs.ghost.preach
  obtain ⟨A, B, rfl, hi⟩ := hp.inv
  have hR : Reopens { db with table := t0 } cs cfg { d with table := t0 } q := ⟨hl, hc, hw, hm⟩
  have hok := S.reopen_ok _ hinv
  have hok0 := S.reopen_ok _ hi.inv.table
  refine ⟨hg, hok.1, fun k hk => ?_⟩
  show vis (S.get (S.reopen d.table) k) = _
  rw [hok.2 k, hok0.2 k]
  refine hag k (fun h1 => hk ?_)
  have := hi.onDisk_reopen hR (k := k) h1
  exact this

/-- The simulation. -/
theorem TSession.sim {p : PDB K S} {h : List (Rec K)} {n : Nat} (hs : TSession p h n) :
    ∃ t0, Sim p.db p.cands h n t0 := by
  induction hs with
  | init c hc => exact ⟨_, Session.init c hc, S.inv_empty, fun _ _ => rfl⟩
  | @set db h n cs r se db' _ hfit hseq hse hs ih =>
    obtain ⟨t0, ih⟩ := ih
    have ht : db'.table = db.table := DB.setRecord_table hs
    have hg : DB.setRecord { db with table := t0 } r se = (.ok, { db' with table := t0 }) := by
      rw [DB.setRecord_retable, hs]
    have gs : Session ⟨{ db with table := t0 }, cs⟩ h n := ih.ghost
    have g1 := Session.set (db' := { db' with table := t0 }) r se gs hfit hseq hse hg
    refine ⟨t0, g1, by rw [ht]; exact ih.inv, fun k hk => ?_⟩
    rw [ht]
    refine ih.agree k (fun h1 => hk ?_)
    obtain ⟨A, B, rfl, hi⟩ := ih.ghost.preach.1.inv
    have hck : DB.check { db with table := t0 } .write = .ok := by
      unfold DB.setRecord at hg
      split at hg
      · next hc => exact absurd (congrArg Prod.fst hg) hc
      · next hc => simpa using hc
    have h0 : r.seq ≠ 0 := by
      intro e
      unfold DB.setRecord LogMgr.setSN at hg
      rw [hck] at hg
      have hrw : db.log.cfg.readOnly = false := hi.inv.log.rw
      simp [hrw, e] at hg
    obtain ⟨db'', hs', -, -, -, hp⟩ := hi.inv.set r se hfit hseq h0 hse hck
    simp only at hs'
    rw [hg] at hs'; cases hs'
    exact h1.put hi.inv.log hp
  | @setRefused db h n cs r se st db' _ hs hst ih =>
    obtain ⟨t0, ih⟩ := ih
    obtain ⟨A, B, -, hi⟩ := ih.ghost.preach.1.inv
    have : db' = db := by
      unfold DB.setRecord at hs
      split at hs
      · cases hs; rfl
      · obtain ⟨hd1, hd⟩ := Prod.ext_iff.1 hs
        simp only at hd hd1
        have e := hi.inv.log.setSN_refused r se (Prod.ext hd1 rfl) hst
        rw [← hd, show (db.log.setSN r se).snd = db.log from e]
    subst this
    exact ⟨t0, ih⟩
  | @batch db h n cs b db' _ hfit hN hs ih =>
    obtain ⟨t0, ih⟩ := ih
    have ht : db'.table = db.table := DB.setRecordBatch_table hs
    have hg : DB.setRecordBatch { db with table := t0 } b = (.ok, { db' with table := t0 }) := by
      rw [DB.setRecordBatch_retable, hs]
    have gs : Session ⟨{ db with table := t0 }, cs⟩ h n := ih.ghost
    have g1 := Session.batch (db' := { db' with table := t0 }) b gs hfit hN hg
    refine ⟨t0, g1, by rw [ht]; exact ih.inv, fun k hk => ?_⟩
    rw [ht]
    refine ih.agree k (fun h1 => hk ?_)
    obtain ⟨A, B, rfl, hi⟩ := ih.ghost.preach.1.inv
    have hck : DB.check { db with table := t0 } .write = .ok := by
      unfold DB.setRecordBatch at hg
      split at hg
      · next hc => exact absurd (congrArg Prod.fst hg) hc
      · next hc => simpa using hc
    rcases hi.inv.batch b hfit hN hck with ⟨-, -, db'', hs', -, -, hp⟩ | ⟨-, hs'⟩
    · simp only at hs'
      rw [hg] at hs'; cases hs'
      exact h1.puts hp ⟨_, _, hi.inv.log⟩
    · simp only at hs'
      rw [hg] at hs'
      have := congrArg Prod.fst hs'
      simp only at this
      split at this <;> cases this
  | @batchRefused db h n cs b st db' _ hfit hN hs hst ih =>
    obtain ⟨t0, ih⟩ := ih
    obtain ⟨A, B, -, hi⟩ := ih.ghost.preach.1.inv
    have : db' = db := by
      unfold DB.setRecordBatch at hs
      split at hs
      · cases hs; rfl
      · next hc =>
        have hck : DB.check { db with table := t0 } .write = .ok := not_not.1 hc
        rcases hi.inv.batch b hfit hN hck with ⟨-, -, db'', hs', -⟩ | ⟨-, hs'⟩
        · unfold DB.setRecordBatch at hs'
          rw [if_neg (by simp [hck])] at hs'
          have e1 := congrArg Prod.fst hs
          have e2 := congrArg Prod.fst hs'
          simp only at e1 e2
          exact absurd (e1.symm.trans e2) hst
        · unfold DB.setRecordBatch at hs'
          rw [if_neg (by simp [hck])] at hs'
          have e1 := congrArg (fun x => x.2) hs
          have e2 := congrArg (fun x => x.2.log) hs'
          simp only at e1 e2
          rw [← e1, e2]
    subst this
    exact ⟨t0, ih⟩
  | @sync db h n cs db' _ hs ih =>
    obtain ⟨t0, ih⟩ := ih
    have ht : db'.table = db.table := DB.sync_table hs
    obtain ⟨A, B, -, hi⟩ := ih.ghost.preach.1.inv
    have hg : DB.sync { db with table := t0 } = (.ok, { db' with table := t0 }) := by
      rw [DB.sync_retable, hs]
    unfold DB.sync at hs
    split at hs
    · next hc => exact absurd (congrArg Prod.fst hs) hc
    · next hc =>
      obtain ⟨h1, h2⟩ := Prod.ext_iff.1 hs
      simp only at h1 h2
      refine ⟨t0, Session.sync ih.ghost hg, by rw [ht]; exact ih.inv, fun k hk => ?_⟩
      rw [ht]
      refine ih.agree k (fun h3 => hk ?_)
      rw [← h2]
      exact h3.sync hi.inv.log hi.store
  | @syncRefused db h n cs st db' _ hs hst ih =>
    obtain ⟨t0, ih⟩ := ih
    obtain ⟨A, B, -, hi⟩ := ih.ghost.preach.1.inv
    have : db' = db := by
      unfold DB.sync at hs
      split at hs
      · cases hs; rfl
      · obtain ⟨l', e, -⟩ := hi.inv.log.sync
        simp only at e
        rw [e] at hs
        exact absurd (congrArg Prod.fst hs).symm hst
    subst this
    exact ⟨t0, ih⟩
  | @syncSkip db h n cs l' _ h1 h2 hs ih =>
    obtain ⟨t0, ih⟩ := ih
    obtain ⟨A, B, -, hi⟩ := ih.ghost.preach.1.inv
    refine ⟨t0, Session.syncSkip ih.ghost h1 h2 hs, ih.inv, fun k hk => ih.agree k (fun h3 => hk ?_)⟩
    have := h3.sync hi.inv.log hi.store
    simp only [hs] at this
    exact this
  | fewer _ h1 h2 ih =>
    obtain ⟨t0, ih⟩ := ih
    exact ⟨t0, Session.fewer ih.ghost h1 h2, ih.inv, ih.agree⟩
  | @flush db h n cs o m db' _ hp hb hsafe hs ih =>
    obtain ⟨t0, ih⟩ := ih
    obtain ⟨A, B, rfl, hi⟩ := ih.ghost.preach.1.inv
    have hmode : db.log.cfg.logSectionOnly = false := hi.inv.mode
    unfold DB.flushLogs at hs
    split at hs
    · next hc => exact absurd (congrArg Prod.fst hs) hc
    · next hc =>
      rw [if_neg (by simp [hmode])] at hs
      obtain ⟨h1, h2⟩ := Prod.ext_iff.1 hs
      simp only at h1 h2
      obtain ⟨i1, i2⟩ := LogMgr.flush_indep db.log o m db.table t0 S.setBatch
      have hg : DB.flushLogs { db with table := t0 } o m =
          (.ok, { db' with table := (db.log.flush o m t0 S.setBatch).2.2 }) := by
        unfold DB.flushLogs
        rw [if_neg (show ¬ DB.check { db with table := t0 } .flush ≠ .ok from hc), if_neg (by simp [hmode])]
        refine Prod.ext (i1.symm.trans h1) ?_
        simp only
        rw [← h2, i2]
      have hsafe' : DB.SafeFlush { db with table := t0 } o m := hsafe
      rcases hi.flushing hsafe' hp with ⟨⟨e, h3, h4⟩, -⟩ | ⟨P, g, Q, s, hF, ⟨h3, h4⟩, h5⟩
      · have : e = .ok := by
          have := congrArg Prod.fst h3
          simp only at this
          rw [← this, ← i1]; exact h1
        exact absurd this h4
      · have hm0 : m ≠ 0 := by
          rintro rfl
          have := congrArg Prod.fst h5
          unfold LogMgr.flush at this
          simp at this
        have h3' : db.log.flushRange o m = .ok (db.log.minNum, g.num, s) := h3
        have h4' : db.log.files.filter (fun f => decide (db.log.minNum ≤ f.num ∧ f.num ≤ g.num)) = P ++ [g] := h4
        have e1 := LogMgr.flush_table db.table S.setBatch hm0 hp h3' h4'
        have e2 := LogMgr.flush_table t0 S.setBatch hm0 hp h3' h4'
        obtain ⟨hinc, -, hst⟩ := hi.handed hb hF
        have hlog : db'.log = db.log.flushed o s g Q := by
          have := congrArg (fun x => x.2.1) h5
          simp only at this
          rw [← h2]
          exact i2.trans this
        have htab : db'.table = (db.log.flush o m db.table S.setBatch).2.2 := by rw [← h2]
        have gs : Session ⟨{ db with table := t0 }, cs⟩ (A ++ B) n := ih.ghost
        have g1 := Session.flush o m gs hp hb hsafe' hg
        refine ⟨_, g1, ?_, fun k hk => ?_⟩
        · rw [htab, e1]
          split
          · exact ih.inv
          · exact S.inv_setBatch _ _ _ ih.inv hinc
        · rw [htab, e1, e2, get_setBatch_ite ih.inv hinc, get_setBatch_ite hi.inv.table hinc]
          cases hlw : lastWrite (LogMgr.gather s o.beyondLastSync (P ++ [g])) k with
          | some r => rfl
          | none =>
            simp only
            refine ih.agree k (fun h6 => ?_)
            rcases hst k h6 with h7 | h7
            · exact hk (by rw [hlog]; exact h7)
            · exact h7 hlw
  | @flushRefused db h n cs o m st db' _ hp hsafe hs hst ih =>
    obtain ⟨t0, ih⟩ := ih
    obtain ⟨A, B, -, hi⟩ := ih.ghost.preach.1.inv
    have hmode : db.log.cfg.logSectionOnly = false := hi.inv.mode
    have : db' = db := by
      unfold DB.flushLogs at hs
      split at hs
      · cases hs; rfl
      · rw [if_neg (by simp [hmode])] at hs
        have hok := hi.inv.flushOk (o := o) (n := m) (DB.SafeFlush.flushSeq (db := { db with table := t0 }) hsafe)
        rcases hi.inv.log.flush_shape o m hok hp db.table S.setBatch with ⟨⟨e, h1, -⟩, -⟩ | ⟨P, g, Q, s, -, -, -, -, -, -, h6⟩
        · simp only at h1 hs
          rw [h1] at hs; cases hs; rfl
        · simp only at h6 hs
          rw [h6] at hs
          exact absurd (congrArg Prod.fst hs).symm hst
    subst this
    exact ⟨t0, ih⟩
  | mark _ ih =>
    obtain ⟨t0, ih⟩ := ih
    obtain ⟨A, B, -, hi⟩ := ih.ghost.preach.1.inv
    exact ⟨t0, Session.mark ih.ghost, ih.inv, fun k hk => ih.agree k (fun h1 => hk (h1.mark hi.inv.log))⟩
  | @checkpoint db h n cs db' c _ hs ih =>
    obtain ⟨t0, ih⟩ := ih
    have ht : db'.table = db.table := DB.checkpoint_table hs
    obtain ⟨A, B, -, hi⟩ := ih.ghost.preach.1.inv
    have hg : DB.checkpoint { db with table := t0 } = (.ok, { db' with table := t0 }, c) := by
      unfold DB.checkpoint at hs ⊢
      obtain ⟨h1, h2⟩ := Prod.ext_iff.1 hs
      obtain ⟨h2, h3⟩ := Prod.ext_iff.1 h2
      simp only at h1 h2 h3
      refine Prod.ext h1 (Prod.ext ?_ h3)
      simp only
      rw [← h2]
    refine ⟨t0, Session.checkpoint ih.ghost hg, by rw [ht]; exact ih.inv, fun k hk => ?_⟩
    rw [ht]
    refine ih.agree k (fun h1 => hk ?_)
    have hl : db'.log = db.log.checkpoint.1.sync.2 := by
      unfold DB.checkpoint at hs
      have := congrArg (fun x => x.2.1.log) hs
      exact this.symm
    rw [hl]
    exact (h1.mark hi.inv.log).sync hi.mark.inv.log hi.mark.store
  | maint _ h1 ih =>
    obtain ⟨t0, ih⟩ := ih
    obtain ⟨a1, a2⟩ := S.maint_ok _ _ ih.inv h1
    exact ⟨t0, ih.ghost, a1, fun k hk => (a2 k).trans (ih.agree k hk)⟩
  | flags c r _ ih =>
    obtain ⟨t0, ih⟩ := ih
    exact ⟨t0, Session.flags c r ih.ghost, ih.inv, ih.agree⟩
  | @reopen db h n cs cfg d q _ hc hd hm ih =>
    obtain ⟨t0, ih⟩ := ih
    refine ⟨_, ih.reopen hc ⟨hd.mani, rfl, hd.synced, hd.once, hd.files⟩ hm (by rw [hd.table]; exact ih.inv) ?_⟩
    rw [hd.table]; exact ih.agree
  | @reopenFlush db h n cs cfg o m d q _ hc hd hm ih =>
    obtain ⟨t0, ih⟩ := ih
    obtain ⟨A, B, -, hi⟩ := ih.ghost.preach.1.inv
    obtain ⟨a1, a2⟩ := hd.table_ok ih.inv hi
    exact ⟨_, ih.reopen hc hd.left hm a1 (fun k hk => (a2 k hk).trans (ih.agree k hk))⟩

/-- The handle's own invariant. -/
theorem TSession.dbinv {p : PDB K S} {h : List (Rec K)} {n : Nat} (hs : TSession p h n) :
    ∃ A B, h = A ++ B ∧ DBInv p.db A B := by
  obtain ⟨t0, hsim⟩ := hs.sim
  obtain ⟨A, B, e, hi⟩ := hsim.ghost.preach.1.inv
  refine ⟨A, B, e, hi.inv.log, hsim.inv, hi.inv.mode, fun k hk => ?_, hi.inv.max0, hi.inv.maxS, hi.inv.pos⟩
  rw [hsim.agree k]
  · exact hi.tab k
  · rintro ⟨f, hf, r, hr, hcm, rfl⟩
    have hl := hi.inv.log
    have hB : r ∈ B := by
      rw [hl.pend]; exact List.mem_flatMap.2 ⟨f, hf, stored_pending (hi.store.ok f hf) hr⟩
    unfold lastWrite at hk
    rw [List.getLast?_eq_none_iff, List.filter_eq_nil_iff] at hk
    exact hk r hB (by simp [hcm])

end Jungle
