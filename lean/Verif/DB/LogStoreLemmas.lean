/-
  Restarts in log-section mode.
-/
import Verif.DB.LogStore
import Verif.DB.RollbackLemmas

namespace Jungle
open Spec
set_option linter.unusedSectionVars false
variable {K : Type} [LinearOrder K] {S : TableSys K}

theorem upTo_all {h : List (Rec K)} {q : Nat} (hq : ∀ r ∈ h, r.seq ≤ q) : upTo h q = h := by
  unfold upTo
  rw [List.filter_eq_self]
  intro r hr; simpa using hq r hr

theorem find_map_onDisk {l : LogMgr K} {A B} (h : LogInv l A B) {f : LogFile K} (hf : f ∈ l.files) :
    (l.files.map LogFile.onDisk).find? (fun d => d.num == f.num) = some f.onDisk := by
  rw [List.find?_map]
  have e : l.files.find? ((fun d : DFile K => d.num == f.num) ∘ LogFile.onDisk) = some f := h.file?_mem hf
  rw [e]; rfl

/-- A handle at rest: everything that was written to the files. -/
theorem LDInv.rest {db : DB K S} {B} (h : LDInv db B) (hs : db.log.lastSynced = db.log.maxNum)
    (ho : db.getLastSyncedSeqNum ≠ none) : LogLeft db db.diskOf := by
  refine ⟨rfl, hs, ho, fun f hf => ⟨f.disk, ?_, List.prefix_refl _, (h.log.store.syncOne h.log.log hf).2.1⟩⟩
  have := find_map_onDisk h.log.log hf
  unfold DB.diskOf Disk.file
  rw [this]
  unfold LogFile.onDisk
  rw [(h.log.store.ok f hf).torn]; rfl

theorem LDInv.restNew {db : DB K S} {B} (h : LDInv db B) (hs : db.log.lastSynced + 1 = db.log.maxNum)
    (ho : db.getLastSyncedSeqNum ≠ none) : LogLeftNew db { db.diskOf with mani := db.log.whenAdded } := by
  refine ⟨Or.inl rfl, hs, ho, fun f hf _ => ⟨f.disk, ?_, List.prefix_refl _, (h.log.store.syncOne h.log.log hf).2.1⟩⟩
  have := find_map_onDisk h.log.log hf
  unfold DB.diskOf Disk.file
  rw [this]
  unfold LogFile.onDisk
  rw [(h.log.store.ok f hf).torn]; rfl

/-- Opening again what a handle at rest left, if everything is synced. -/
theorem LDInv.restart {db : DB K S} {B} (h : LDInv db B) (hls : db.log.lastSynced = db.log.maxNum) (hne : B ≠ [])
    (hs : ∀ f ∈ db.log.files, f.mem.maxSeqNum ≠ NIL → f.mem.syncedSeqNum = f.mem.maxSeqNum) :
    LogLeft db db.diskOf ∧ ∃ q, upTo B q = B ∧
      ∀ (cfg : Cfg) (trunc : Bool), cfg.LogOnly → (trunc = true → Consecutive B) →
        (DB.reopenOnly cfg trunc db.diskOf).getMaxSeqNum = some q ∧ LDInv (DB.reopenOnly cfg trunc db.diskOf) B := by
  obtain ⟨fs, g, hg⟩ := h.log.log.split_last
  have hgf : g ∈ db.log.files := by rw [hg]; simp
  have hgm : g.mem.maxSeqNum ≠ NIL := fun e => hne ((h.log.log.top fs g hg).1 e).1
  have ho : db.getLastSyncedSeqNum ≠ none := by
    unfold DB.getLastSyncedSeqNum LogMgr.getLastSyncedSeqNum
    rw [hls, ← h.log.log.last_num hg, h.log.log.file?_mem hgf]
    simp [hs g hgf hgm, hgm]
  have hl := h.rest hls ho
  refine ⟨hl, ?_⟩
  obtain ⟨q, hr, hq, hre⟩ := h.left hl
  have hB : upTo B q = B := upTo_all (fun r hr => by
    rw [h.log.log.pend] at hr
    obtain ⟨f, hf, hrf⟩ := List.mem_flatMap.1 hr
    have hrs := pending_sub hrf
    have hb := ((h.log.log.wf f hf).bound r hrs).2.1
    have hm : f.mem.maxSeqNum ≠ NIL := by
      intro e
      have := ((h.log.log.wf f hf).nil e).1
      rw [this] at hrs; cases hrs
    have := hq f hf
    rw [hs f hf hm] at this
    omega)
  refine ⟨q, hB, fun cfg trunc hc ht => ?_⟩
  obtain ⟨h1, h2⟩ := hre cfg trunc hc ht
  rw [hB] at h2
  exact ⟨h1, h2⟩

/-- A sync leaves everything synced. -/
theorem LDInv.sync_ok {db db' : DB K S} {B} (h : LDInv db B) (hs : db.sync = (.ok, db')) :
    LDInv db' B ∧ db'.log.lastSynced = db'.log.maxNum ∧ db'.getMaxSeqNum = db.getMaxSeqNum ∧
    ∀ f ∈ db'.log.files, f.mem.maxSeqNum ≠ NIL → f.mem.syncedSeqNum = f.mem.maxSeqNum := by
  unfold DB.sync at hs
  split at hs
  · next hc => exact absurd (congrArg Prod.fst hs) hc
  · obtain ⟨l', h1, h2, h3, h4, h5, h6⟩ := h.log.sync
    simp only [h1] at hs
    cases hs
    refine ⟨h.ofLog h2 h3 h5, ?_, h5, fun f hf => (h6 f hf).2⟩
    have e := h.log.log.sync_eq h.log.store
    rw [h1] at e
    have el := congrArg Prod.snd e
    simp only [] at el
    rw [el]

theorem LRInv.synced_sync {l l1 : LogMgr K} {B} (h : LRInv l B) (hs : l.sync = (.ok, l1)) :
    LRInv l1 B ∧ l1.cfg = l.cfg ∧ l1.maxNum = l.maxNum ∧ l1.lastSynced = l1.maxNum ∧
    ∀ f ∈ l1.files, dataOf f.disk = f.mem.bySeq ∧ (f.mem.maxSeqNum ≠ NIL → f.mem.syncedSeqNum = f.mem.maxSeqNum) := by
  obtain ⟨l', h1, h2, h3, h4, h5, h6⟩ := h.sync
  rw [hs] at h1
  cases h1
  refine ⟨h2, h3, h4, ?_, h6⟩
  have e := h.log.sync_eq h.store
  rw [hs] at e
  have el := congrArg Prod.snd e
  simp only [] at el
  rw [el]

/-- A rollback leaves everything synced. -/
theorem LRInv.rollback_synced {l l' : LogMgr K} {B} (h : LRInv l B) (hne : B ≠ []) {n : Nat}
    (hs : l.rollback n = (.ok, l')) :
    l'.lastSynced = l'.maxNum ∧ (∀ f ∈ l'.files, f.mem.maxSeqNum ≠ NIL → f.mem.syncedSeqNum = f.mem.maxSeqNum) ∧
    ∃ l1 f, l.sync = (.ok, l1) ∧ l1.fileBySeq n = some f ∧ l'.maxNum = f.num := by
  have hI : LRInv l' (B.filter (fun r => decide (r.seq ≤ n))) := by
    rcases h.rollback hne n with ⟨l2, h1, h2, -⟩ | ⟨l2, h1, -⟩
    · rw [hs] at h1; cases h1; exact h2
    · rw [hs] at h1; cases congrArg Prod.fst h1
  have key : l'.lastSynced = l'.maxNum ∧ ∃ l1 f, l.sync = (.ok, l1) ∧ l1.fileBySeq n = some f ∧ l'.maxNum = f.num := by
    obtain ⟨l1, s1, s2, s3, s4, s5, s6⟩ := h.sync
    unfold LogMgr.rollback LogMgr.rollbackCore at hs
    rw [if_neg (by simp [h.log.rw]), s1] at hs
    simp only [] at hs
    cases hfs : l1.fileBySeq n with
    | none => rw [hfs] at hs; cases congrArg Prod.fst hs
    | some f =>
      obtain ⟨hf, hm, hmin, hmax, d, f1, t0, -⟩ := s2.truncate hne s6 hfs
      rw [hfs] at hs
      simp only [t0] at hs
      refine ⟨?_, l1, f, s1, hfs, ?_⟩ <;>
      · split at hs
        · cases hs; rfl
        · cases hs; rfl
  refine ⟨key.1, fun f hf _ => ?_, key.2⟩
  rcases h.rollback hne n with ⟨l2, h1, -, -, -, -, -, h2⟩ | ⟨l2, h1, -⟩
  · rw [hs] at h1; cases h1; exact h2 f hf
  · rw [hs] at h1; cases congrArg Prod.fst h1

/-- A cut file while the manifest still lists it as it was, if it is the newest one. -/
theorem LRInv.cut_newest {l : LogMgr K} {B} (h : LRInv l B) (hne : B ≠ []) {n : Nat} {f f1 : LogFile K}
    (hs : ∀ f ∈ l.files, dataOf f.disk = f.mem.bySeq ∧ (f.mem.maxSeqNum ≠ NIL → f.mem.syncedSeqNum = f.mem.maxSeqNum))
    (hfs : l.fileBySeq n = some f) (ht : f.truncate n = (.ok, f1)) (hn : f.num = l.maxNum) (keep : Nat → Bool) :
    l.Durable l.persist (((l.setFile f1).files.filter (fun g => decide (g.num ≤ f.num) || keep g.num)).map LogFile.onDisk) n := by
  obtain ⟨hf, hm, hmin, hmax, d, f2, t0, t1, t2, t3, t4, -, -, -, -, c2, c3⟩ := h.truncate hne hs hfs
  rw [ht] at t0
  cases t0
  have hall : ∀ g ∈ l.files, g.mem.maxSeqNum ≠ NIL := by
    intro g hg
    by_cases e : g.num = l.maxNum
    · rw [h.log.same_num hg hf (by omega)]; exact hm
    · exact h.log.ne_last hg (by have := (h.log.num_range hg).2; omega)
  have hflt : (l.setFile f1).files.filter (fun g => decide (g.num ≤ f.num) || keep g.num) = (l.setFile f1).files := by
    rw [List.filter_eq_self]
    intro g hg
    obtain ⟨x, hx, rfl⟩ := List.mem_map.1 hg
    have := (h.log.num_range hx).2
    by_cases e : x.num = f1.num
    · rw [if_pos (by simpa using e)]; simp [t1]
    · rw [if_neg (by simpa using e)]; simp; left; omega
  rw [hflt]
  refine h.durable hall (fun g hg => ?_)
  have hfind : ∀ x : LogFile K, ((l.setFile f1).files.map LogFile.onDisk).find? (fun d => d.num == g.num) =
      (l.files.map (fun x => if x.num == f1.num then f1.onDisk else x.onDisk)).find? (fun d => d.num == g.num) := by
    intro _
    unfold LogMgr.setFile
    rw [List.map_map]
    congr 1
    apply List.map_congr_left
    intro x _
    simp only [Function.comp]
    split <;> rfl
  have hpos : ((l.setFile f1).files.map LogFile.onDisk).find? (fun d => d.num == g.num) =
      some (if g.num == f1.num then f1.onDisk else g.onDisk) := by
    rw [hfind g, List.find?_map]
    have e : l.files.find? ((fun d : DFile K => d.num == g.num) ∘ (fun x => if x.num == f1.num then f1.onDisk else x.onDisk)) = some g := by
      have e1 : l.files.find? (fun x => x.num == g.num) = some g := h.log.file?_mem hg
      rw [← e1]
      congr 1
      funext x
      simp only [Function.comp]
      by_cases e : x.num = f1.num
      · rw [if_pos (by simpa using e)]
        show (f1.num == g.num) = _
        rw [e]
      · rw [if_neg (by simpa using e)]; rfl
    rw [e]; rfl
  rw [hpos]
  by_cases e : g.num = f1.num
  · rw [if_pos (by simpa using e)]
    have eg : g = f := h.log.same_num hg hf (by omega)
    subst eg
    refine ⟨d, ?_, c2, c3⟩
    unfold LogFile.onDisk
    rw [t4, t3, t1]; rfl
  · rw [if_neg (by simpa using e)]
    refine ⟨g.disk, ?_, ?_, ?_⟩
    · unfold LogFile.onDisk
      rw [(h.store.ok g hg).torn]; rfl
    · rw [(hs g hg).1]
      symm
      refine cutAt_all (fun r hr => ?_)
      have hlt : g.num < f.num := by have := (h.log.num_range hg).2; omega
      obtain ⟨P, Q, hPQ⟩ := List.append_of_mem hf
      have ho := h.log.order
      rw [hPQ] at ho
      have ho1 := List.pairwise_append.1 ho
      have hgP : g ∈ P := by
        rw [hPQ] at hg
        rcases List.mem_append.1 hg with h1 | h1
        · exact h1
        · rcases List.mem_cons.1 h1 with h1 | h1
          · rw [h1] at hlt; omega
          · have := ((List.pairwise_cons.1 ho1.2.1).1 g h1).num; omega
      have hb := ho1.2.2 g hgP f (by simp)
      have := hb.min hb.ne ((h.store.ok f hf).min hm)
      have := ((h.log.wf g hg).bound r hr).2.1
      omega
    · rw [(hs g hg).1]
      obtain ⟨r, hr, -⟩ := h.low.mn g hg (hall g hg)
      exact List.ne_nil_of_mem hr

end Jungle
