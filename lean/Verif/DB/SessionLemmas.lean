/-
  The log files of a session: on disk is what is known to be synced.
-/
import Verif.DB.Session
import Verif.DB.ReachInv

set_option linter.unusedSectionVars false

namespace Jungle
open Spec
variable {K : Type} [LinearOrder K] {S : TableSys K}

def LogMgr.Whole (l : LogMgr K) : Prop := ∀ f ∈ l.files, f.Complete

theorem LogMgr.Whole.init (c : Cfg) : (LogMgr.init c : LogMgr K).Whole := by
  intro f hf
  simp only [LogMgr.init, List.mem_singleton] at hf
  subst hf
  exact ⟨rfl, fun h => absurd rfl h⟩

theorem LogMgr.Whole.put {l l' : LogMgr K} {A B} (h : l.Whole) (hl : LogInv l A B) (hp : PutStep l l') : l'.Whole := by
  cases hp with
  | @same fs f m' r s hf hput h0 hN hgt =>
    intro g hg
    rcases List.mem_append.1 hg with hg | hg
    · exact h g (by rw [hf]; simp [hg])
    · rw [List.mem_singleton] at hg; subst hg
      have hff : f ∈ l.files := by rw [hf]; simp
      exact (h f hff).put (hl.wf f hff) hput hgt
  | @new fs f m' r s hf hm hput h0 hN =>
    intro g hg
    rcases List.mem_append.1 hg with hg | hg
    · exact h g (by rw [hf]; exact hg)
    · rw [List.mem_singleton] at hg; subst hg
      refine ⟨rfl, fun hs => absurd ?_ hs⟩
      simp only [hput.synced]; rfl

theorem LogMgr.Whole.puts {l l' : LogMgr K} (hp : PutSteps l l') (h : l.Whole) (hl : ∃ A B, LogInv l A B) : l'.Whole := by
  induction hp with
  | refl => exact h
  | step h1 _ h2 _ ih =>
    obtain ⟨A, B, hl⟩ := hl
    exact ih (h.put hl h1) h2

theorem PInv.whole_syncOne {db : DB K S} {cs : List PMani} {n : Nat} {A B : List (Rec K)} (hi : PInv ⟨db, cs⟩ n A B)
    (h : db.log.Whole) {f : LogFile K} (hf : f ∈ db.log.files) : (db.log.syncOne f).Complete := by
  unfold LogMgr.syncOne
  split
  · have := hi.inv.log.bar
    simp only [] at this
    rw [this]; exact (h f hf).sync (hi.store.ok f hf) (hi.inv.log.wf f hf) (hi.ext.top f hf) _
  · exact h f hf

theorem PInv.whole_sync {db : DB K S} {cs : List PMani} {n : Nat} {A B : List (Rec K)} (hi : PInv ⟨db, cs⟩ n A B)
    (h : db.log.Whole) : db.log.sync.2.Whole := by
  have e := congrArg Prod.snd (hi.inv.log.sync_eq hi.store)
  simp only [] at e
  rw [e]
  intro f hf
  obtain ⟨f0, hf0, rfl⟩ := List.mem_map.1 hf
  exact hi.whole_syncOne h hf0

theorem LogMgr.Whole.mark {l : LogMgr K} (h : l.Whole) : l.checkpoint.1.Whole := by
  unfold LogMgr.checkpoint
  cases hf : l.file? l.maxNum with
  | none => exact h
  | some g =>
    have hg : g ∈ l.files := List.mem_of_find?_eq_some hf
    intro f hf
    simp only [LogMgr.setFile, List.mem_map] at hf
    obtain ⟨x, hx, rfl⟩ := hf
    split
    · refine (h g hg).congr rfl ?_ ?_
      · show g.mem.checkpoint.1.syncedSeqNum = _
        unfold MemTable.checkpoint; split <;> (try split) <;> rfl
      · show g.mem.checkpoint.1.bySeq = _
        unfold MemTable.checkpoint; split <;> (try split) <;> rfl
    · exact h x hx

theorem PInv.whole_reopen {db : DB K S} {cs : List PMani} {n : Nat} {A B : List (Rec K)} (hi : PInv ⟨db, cs⟩ n A B)
    {cfg : Cfg} {d : Disk K S} {q : Nat} (hd : Reopens db cs cfg d q) : (DB.reopen cfg d).log.Whole := by
  have hl := hi.inv.log
  have hD := hi.durable hd
  have hlog : (DB.reopen cfg d).log = db.log.reloaded cfg d.files := hD.recover hl cfg
  rw [hlog]
  intro f' hf'
  obtain ⟨f, hf, rfl⟩ := List.mem_map.1 hf'
  obtain ⟨items, i1, i2, i3⟩ := hd.files f hf
  obtain ⟨items', j1, j2, j3, j4⟩ := hD.disk f hf
  rw [show d.files.find? _ = d.file f.num from rfl, i1] at j1
  obtain rfl : items = items' := by simpa using j1
  obtain ⟨hR, hdk, -⟩ := reload_ok i1 j2 j3 j4 (hl.wf f hf).sorted
  refine ⟨?_, fun _ => ⟨?_, ?_⟩⟩
  · rw [hdk]; exact marked_prefix i3 (hi.whole_syncOne hd.complete hf).1
  · rw [hR.data, hR.synced]
    exact (cutAt_all hR.le).symm
  · rw [hR.synced]; exact hR.last

/-- A session is a sequence of calls and restarts, and on disk is what is known to be synced. -/
theorem Session.preach {p : PDB K S} {h : List (Rec K)} {n : Nat} (hs : Session p h n) :
    PReach p h n ∧ p.db.log.Whole := by
  induction hs with
  | init c hc => exact ⟨PReach.init c hc, LogMgr.Whole.init c⟩
  | @set db h n cs r se db' _ hfit hseq hse hs ih =>
    refine ⟨PReach.set r se ih.1 hfit hseq hse hs, ?_⟩
    obtain ⟨A, B, rfl, hi⟩ := ih.1.inv
    have hck : db.check .write = .ok := by
      unfold DB.setRecord at hs
      split at hs
      · next hc => exact absurd (congrArg Prod.fst hs) hc
      · next hc => simpa using hc
    have h0 : r.seq ≠ 0 := by
      intro e
      unfold DB.setRecord LogMgr.setSN at hs
      rw [hck] at hs
      have hrw : db.log.cfg.readOnly = false := hi.inv.log.rw
      simp [hrw, e] at hs
    obtain ⟨db'', hs', hi', -, he, hp⟩ := hi.inv.set r se hfit hseq h0 hse hck
    simp only at hs'
    rw [hs] at hs'; cases hs'
    exact ih.2.put hi.inv.log hp
  | @setRefused db h n cs r se st db' _ hs hst ih =>
    refine ⟨PReach.setRefused r se ih.1 hs hst, ?_⟩
    obtain ⟨A, B, rfl, hi⟩ := ih.1.inv
    have : db' = db := by
      unfold DB.setRecord at hs
      split at hs
      · cases hs; rfl
      · obtain ⟨hd1, hd⟩ := Prod.ext_iff.1 hs
        simp only at hd hd1
        have e := hi.inv.log.setSN_refused r se (Prod.ext hd1 rfl) hst
        rw [← hd, show (db.log.setSN r se).snd = db.log from e]
    rw [this]; exact ih.2
  | @batch db h n cs b db' _ hfit hN hs ih =>
    refine ⟨PReach.batch b ih.1 hfit hN hs, ?_⟩
    obtain ⟨A, B, rfl, hi⟩ := ih.1.inv
    have hck : db.check .write = .ok := by
      unfold DB.setRecordBatch at hs
      split at hs
      · next hc => exact absurd (congrArg Prod.fst hs) hc
      · next hc => simpa using hc
    rcases hi.inv.batch b hfit hN hck with ⟨-, -, db'', hs', hi', he, hp⟩ | ⟨-, hs'⟩
    · simp only at hs'
      rw [hs] at hs'; cases hs'
      exact LogMgr.Whole.puts hp ih.2 ⟨_, _, hi.inv.log⟩
    · simp only at hs'
      rw [hs] at hs'
      have := congrArg Prod.fst hs'
      simp only at this
      split at this <;> cases this
  | @batchRefused db h n cs b st db' _ hfit hN hs hst ih =>
    refine ⟨PReach.batchRefused b ih.1 hfit hN hs hst, ?_⟩
    obtain ⟨A, B, rfl, hi⟩ := ih.1.inv
    by_cases hck : db.check .write = .ok
    · rcases hi.inv.batch b hfit hN hck with ⟨-, -, db'', hs', hi', -⟩ | ⟨-, hs'⟩
      · simp only at hs'
        rw [hs] at hs'; cases hs'; exact absurd rfl hst
      · simp only at hs'
        rw [hs] at hs'
        have := congrArg Prod.snd hs'
        simp only at this
        rw [this]; exact ih.2
    · unfold DB.setRecordBatch at hs
      rw [if_pos hck] at hs; cases hs; exact ih.2
  | @sync db h n cs db' _ hs ih =>
    refine ⟨PReach.sync ih.1 hs, ?_⟩
    obtain ⟨A, B, rfl, hi⟩ := ih.1.inv
    unfold DB.sync at hs
    split at hs
    · next hc => exact absurd (congrArg Prod.fst hs) hc
    · have := congrArg Prod.snd hs
      simp only at this
      rw [← this]; exact hi.whole_sync ih.2
  | @syncRefused db h n cs st db' _ hs hst ih =>
    refine ⟨PReach.syncRefused ih.1 hs hst, ?_⟩
    obtain ⟨A, B, rfl, hi⟩ := ih.1.inv
    rcases (hi.inv.sync hs).2 with h1 | h1
    · exact absurd h1 hst
    · rw [h1.2]; exact ih.2
  | @syncSkip db h n cs l' _ h1 h2 hs ih =>
    refine ⟨PReach.syncSkip ih.1 h1 h2 hs, ?_⟩
    obtain ⟨A, B, rfl, hi⟩ := ih.1.inv
    have := hi.whole_sync ih.2
    rw [hs] at this; exact this
  | fewer _ h1 h2 ih => exact ⟨PReach.fewer ih.1 h1 h2, ih.2⟩
  | @flush db h n cs o m db' _ hp hb hsafe hs ih =>
    refine ⟨PReach.flush o m ih.1 hp hsafe hs, ?_⟩
    obtain ⟨A, B, rfl, hi⟩ := ih.1.inv
    unfold DB.flushLogs at hs
    split at hs
    · next hc => exact absurd (congrArg Prod.fst hs) hc
    · rw [if_neg (by have := hi.inv.mode; simp only at this; simp [this])] at hs
      rcases hi.flushing hsafe hp with ⟨⟨e, h1, -⟩, -⟩ | ⟨P, g, Q, s, h1, -, h2⟩
      · simp only [h1] at hs
        cases hs; exact ih.2
      · simp only [h2] at hs
        have := congrArg Prod.snd hs
        simp only at this
        rw [← this]
        intro f hf
        have hf : f ∈ ((if o.beyondLastSync = true then g.setSyncedSeqNum s else g).setFlushedSeqNum s) :: Q := hf
        rw [if_neg (by simp [hb])] at hf
        rcases List.mem_cons.1 hf with h3 | h3
        · subst h3
          refine (ih.2 g (by rw [h1.files]; simp)).congr ?_ ?_ (setFlushed_bySeq _ _)
          · unfold LogFile.setFlushedSeqNum; split <;> (try split) <;> rfl
          · unfold LogFile.setFlushedSeqNum; split <;> (try split) <;> rfl
        · exact ih.2 f (by rw [h1.files]; simp [h3])
  | @flushRefused db h n cs o m st db' _ hp hsafe hs hst ih =>
    refine ⟨PReach.flushRefused o m ih.1 hp hsafe hs hst, ?_⟩
    obtain ⟨A, B, rfl, hi⟩ := ih.1.inv
    obtain ⟨-, D, B', -, -, -, he, -⟩ := hi.inv.flush hp hsafe.flushSeq hs
    rw [he hst]; exact ih.2
  | mark _ ih => exact ⟨PReach.mark ih.1, ih.2.mark⟩
  | @checkpoint db h n cs db' c _ hs ih =>
    refine ⟨PReach.checkpoint ih.1 hs, ?_⟩
    obtain ⟨A, B, rfl, hi⟩ := ih.1.inv
    unfold DB.checkpoint at hs
    have := congrArg (fun x => x.2.1) hs
    simp only at this
    rw [← this]
    exact hi.mark.whole_sync (db := { db with log := db.log.checkpoint.1 }) ih.2.mark
  | maint _ ht ih => exact ⟨PReach.maint ih.1 ht, ih.2⟩
  | flags c r _ ih => exact ⟨PReach.flags c r ih.1, ih.2⟩
  | @reopen db h n cs cfg d q _ hc hl hm ih =>
    have hd : Reopens db cs cfg d q := ⟨hl, hc, ih.2, hm⟩
    obtain ⟨A, B, -, hi⟩ := ih.1.inv
    exact ⟨PReach.reopen cfg d q ih.1 hd, hi.whole_reopen hd⟩

/-- What a handle left can be opened again, and what was synced is kept. -/
theorem Session.left {db : DB K S} {cs : List PMani} {h : List (Rec K)} {n : Nat} (hs : Session ⟨db, cs⟩ h n)
    {d : Disk K S} (hd : Left db cs d) :
    ∃ q, (∀ cfg : Cfg, cfg.Plain → (DB.reopen cfg d).getMaxSeqNum = some q) ∧ (∀ r ∈ h.take n, r.seq ≤ q) ∧
      ((∀ f ∈ db.log.files, f.mem.syncedSeqNum = f.mem.maxSeqNum) → ∀ r ∈ h, r.seq ≤ q) := by
  obtain ⟨hp, hw⟩ := hs.preach
  obtain ⟨A, B, rfl, hi⟩ := hp.inv
  obtain ⟨q, hD, hq⟩ := hi.left hd hw
  have hl := hi.inv.log
  simp only [] at hl
  have hdisk : ∀ f ∈ db.log.files, ∀ r ∈ dataOf f.disk, r.seq ≤ q := by
    intro f hf r hr
    obtain ⟨items, i1, i2, -⟩ := hd.files f hf
    obtain ⟨items', j1, j2, -, -⟩ := hD.disk f hf
    rw [show d.files.find? _ = d.file f.num from rfl, i1] at j1
    obtain rfl : items = items' := by simpa using j1
    have := (dataOf_prefix i2).subset hr
    rw [j2] at this
    exact (mem_cutAt.1 this).2
  refine ⟨q, hq, ?_, ?_⟩
  · intro r hr
    obtain ⟨F, G, hL, hn⟩ := hi.cand d.mani hd.mani
    rcases List.mem_append.1 (hn r hr) with h1 | h1
    · exact hD.flushedLe hl r h1
    · obtain ⟨f, hf, hr'⟩ := List.mem_flatMap.1 h1
      have hff : f ∈ db.log.files := by
        have := hL.files
        simp only [] at this
        rw [this]; exact List.mem_append_left _ hf
      refine hdisk f hff r ?_
      unfold LogFile.stored above at hr'
      exact (List.mem_filter.1 hr').1
  · intro hall r hr
    rcases List.mem_append.1 hr with h1 | h1
    · exact hD.flushedLe hl r h1
    · rw [hl.pend] at h1
      obtain ⟨f, hf, hr'⟩ := List.mem_flatMap.1 h1
      unfold LogFile.pending at hr'
      have hrb := (List.mem_filter.1 hr').1
      have hwf := hl.wf f hf
      have hne : f.mem.maxSeqNum ≠ NIL := by
        intro e
        have := (hwf.nil e).1
        rw [this] at hrb; cases hrb
      refine hdisk f hf r ?_
      rw [((hw f hf).2 (by rw [hall f hf]; exact hne)).1, List.mem_filter, hall f hf]
      exact ⟨hrb, by simpa using (hwf.bound r hrb).2.1⟩

/-- After a sync the handle may be closed. -/
theorem Session.closed {db db' : DB K S} {cs : List PMani} {h : List (Rec K)} {n : Nat} (hs : Session ⟨db, cs⟩ h n)
    (hne : h ≠ []) (hsy : db.sync = (.ok, db')) : Left db' [db'.log.persist] db'.diskOf ∧
      ∀ f ∈ db'.log.files, f.mem.syncedSeqNum = f.mem.maxSeqNum := by
  obtain ⟨hp, -⟩ := hs.preach
  obtain ⟨A, B, rfl, hi⟩ := hp.inv
  obtain ⟨A', B', e', hi'⟩ := (PReach.sync hp hsy).inv
  have hl := hi.inv.log
  have hl' := hi'.inv.log
  simp only [] at hl hl'
  have hlog : db'.log = { db.log with files := db.log.files.map db.log.syncOne, lastSynced := db.log.maxNum } := by
    unfold DB.sync at hsy
    split at hsy
    · next hc => exact absurd (congrArg Prod.fst hsy) hc
    · have h1 := congrArg (fun x => x.2.log) hsy
      have h2 := congrArg Prod.snd (hl.sync_eq hi.store)
      simp only at h1 h2
      rw [← h1, h2]
  have hmx : ∀ f ∈ db'.log.files, f.mem.maxSeqNum ≠ NIL := by
    intro f hf e
    obtain ⟨fs, g, hg⟩ := hl'.split_last
    rw [hg] at hf
    have ho := hl'.order
    rw [hg] at ho
    by_cases hgm : g.mem.maxSeqNum = NIL
    · have := ((hl'.top fs g hg).1 hgm).1
      rw [← e'] at this; exact hne this
    · rcases List.mem_append.1 hf with h1 | h1
      · have hn : f.num < db'.log.maxNum := by
          rw [← hl'.last_num hg]
          exact ((List.pairwise_append.1 ho).2.2 f h1 g (by simp)).num
        exact hl'.ne_last (by rw [hg]; exact hf) hn e
      · rw [List.mem_singleton.1 h1] at e; exact hgm e
  have hall : ∀ f ∈ db'.log.files, f.mem.syncedSeqNum = f.mem.maxSeqNum := by
    intro f hf
    have hm := hmx f hf
    rw [hlog] at hf
    obtain ⟨f0, hf0, rfl⟩ := List.mem_map.1 hf
    have hr := hl.syncOne_rel hf0
    rw [hr.max] at hm ⊢
    exact (hi.store.syncOne hl hf0).2.2.2.1 hm
  refine ⟨⟨by simp [DB.diskOf], rfl, by rw [hlog], ?_, ?_⟩, hall⟩
  · obtain ⟨fs, g, hg⟩ := hl'.split_last
    have hgf : g ∈ db'.log.files := by rw [hg]; simp
    unfold DB.getLastSyncedSeqNum LogMgr.getLastSyncedSeqNum
    have : db'.log.lastSynced = g.num := by rw [hl'.last_num hg, hlog]
    rw [this, hl'.file?_mem hgf]
    have h1 := hall g hgf
    have h2 := hmx g hgf
    have h3 : g.num ≠ NIL := by rw [hl'.last_num hg]; exact Nat.ne_of_lt hl'.numN
    simp [h1, h2]
  · intro f hf
    refine ⟨f.disk, ?_, List.prefix_rfl, (hi'.store.syncOne hl' hf).2.1⟩
    show List.find? _ (List.map _ _) = _
    rw [List.find?_map]
    have := hl'.file?_mem hf
    unfold LogMgr.file? at this
    have e : ((fun x : DFile K => x.num == f.num) ∘ LogFile.onDisk) = (fun g : LogFile K => g.num == f.num) := rfl
    rw [e, this]
    have ht := (hi'.store.ok f hf).torn
    simp [LogFile.onDisk, ht]

end Jungle
