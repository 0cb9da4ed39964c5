/-
  The invariant of the log section: sync and checkpoint.
-/
import Verif.Log.MgrLemmas2

namespace Jungle
open Spec
set_option linter.unusedSectionVars false

variable {K : Type} [LinearOrder K]

/-- `f'` differs from `f` at most in the sync mark, which is kept or moved to the maximum, and
    in parts that do not matter for reading. -/
structure SyncRel (f f' : LogFile K) : Prop where
  num : f'.num = f.num
  start : f'.startSeq = f.startSeq
  mstart : f'.mem.startSeqNum = f.mem.startSeqNum
  bySeq : f'.mem.bySeq = f.mem.bySeq
  byKey : f'.mem.byKey = f.mem.byKey
  min : f'.mem.minSeqNum = f.mem.minSeqNum
  max : f'.mem.maxSeqNum = f.mem.maxSeqNum
  alloc : f'.mem.seqNumAlloc = f.mem.seqNumAlloc
  flushed : f'.mem.flushedSeqNum = f.mem.flushedSeqNum
  synced : f'.mem.syncedSeqNum = f.mem.syncedSeqNum ∨
    (f.mem.maxSeqNum ≠ NIL ∧ f'.mem.syncedSeqNum = f.mem.maxSeqNum)

theorem SyncRel.rfl' (f : LogFile K) : SyncRel f f := ⟨rfl, rfl, rfl, rfl, rfl, rfl, rfl, rfl, rfl, Or.inl rfl⟩

theorem SyncRel.pending {f f' : LogFile K} (h : SyncRel f f') : f'.pending = f.pending := by
  unfold LogFile.pending; rw [h.bySeq, h.flushed]

theorem SyncRel.wf {f f' : LogFile K} (h : SyncRel f f') (w : f.mem.WF) : f'.mem.WF := by
  have hle := w.le_nil
  refine ⟨?_, ?_, ?_, ?_, ?_, ?_, ?_, ?_, ?_, ?_, ?_⟩
  · rw [h.bySeq]; exact w.sorted
  · rw [h.byKey]; exact w.keys
  · rw [h.bySeq, h.byKey]; exact w.idx
  · rw [h.alloc, h.max]; exact w.alloc
  · rw [h.max, h.bySeq, h.min]; exact w.nil
  · rw [h.max]; exact w.le_nil
  · rw [h.bySeq, h.min, h.max]; exact w.bound
  · rw [h.max, h.min]; exact w.minle
  · rw [h.max]
    rcases h.synced with hs | ⟨h1, hs⟩
    · rw [hs]; exact w.synced
    · rw [hs]; right; omega
  · rw [h.flushed, h.max]; exact w.flushed
  · rw [h.flushed]
    rcases h.synced with hs | ⟨h1, hs⟩
    · rw [hs]; exact w.order
    · rw [hs]; rcases w.flushed with hf | hf
      · exact Or.inr (Or.inl hf)
      · exact Or.inr (Or.inr hf.1)

theorem SyncRel.before {f f' g g' : LogFile K} (hf : SyncRel f f') (hg : SyncRel g g')
    (h : Before f g) : Before f' g' := by
  refine ⟨?_, ?_, ?_, ?_, ?_, ?_, ?_, by rw [hf.start, hg.start]; exact h.startLe, by rw [hf.max]; exact h.ne⟩
  · rw [hf.num, hg.num]; exact h.num
  · rw [hf.max, hg.max]; exact h.max
  · rw [hf.max, hg.bySeq]; exact h.recs
  · rw [hf.max, hg.min]; exact h.min
  · rw [hf.max]
    rcases hg.synced with hs | ⟨h1, hs⟩
    · rw [hs]; exact h.synced
    · rw [hs]; intro hm _; exact (h.max hm).2
  · rw [hf.max, hg.start]; exact h.start
  · rw [hg.flushed]; exact h.flushed

theorem SyncRel.nextEq {f f' : LogFile K} (h : SyncRel f f') : f'.mem.next = f.mem.next := by
  unfold MemTable.next; rw [h.max, h.mstart]

/-- Only the newest file can be empty. -/
theorem LogInv.empty_last {l : LogMgr K} {A B} (h : LogInv l A B) {f} (hf : f ∈ l.files)
    (hm : f.mem.maxSeqNum = NIL) : f.num = l.maxNum := by
  obtain ⟨fs, g, e⟩ := h.split_last
  have ho := h.order
  rw [e] at ho hf
  simp only [List.mem_append, List.mem_singleton] at hf
  rcases hf with hf | rfl
  · exact absurd hm ((List.pairwise_append.1 ho).2.2 f hf g (by simp)).ne
  · exact h.last_num e

theorem LogInv.mapSync {l : LogMgr K} {A B} (h : LogInv l A B) (φ : LogFile K → LogFile K) (ls : Nat)
    (hφ : ∀ f ∈ l.files, SyncRel f (φ f))
    (him : ∀ f ∈ l.files, f.mem.maxSeqNum = NIL → (φ f).immutable = f.immutable)
    (hls : ls = NIL ∨ (l.minNum ≤ ls ∧ ls ≤ l.maxNum))
    (hsy : ls ≠ NIL → ∀ f ∈ l.files, (f.num < ls ∨ (f.num = ls ∧ l.minNum < ls)) →
      f.mem.maxSeqNum ≠ NIL → (φ f).mem.syncedSeqNum ≠ NIL) :
    LogInv { l with files := l.files.map φ, lastSynced := ls } A B := by
  have hmin : ({ l with files := l.files.map φ, lastSynced := ls } : LogMgr K).minNum = l.minNum := by
    unfold LogMgr.minNum
    cases hf : l.files with
    | nil => rfl
    | cons f fs => simp only [List.map_cons]; exact (hφ f (by rw [hf]; simp)).num
  refine ⟨h.rw, h.noOv, h.bar, by simp [h.ne], ?_, h.numN, ?_, ?_, h.entries, ?_, ?_, ?_, ?_, ?_, ?_, ?_, ?_, h.inc, ?_⟩
  · obtain ⟨a, h1, h2⟩ := h.nums
    refine ⟨a, ?_, by simpa using h2⟩
    simp only [List.length_map, List.map_map]
    rw [← h1]
    exact List.map_congr_left (fun f hf => (hφ f hf).num)
  · intro f hf
    obtain ⟨g, hg, rfl⟩ := List.mem_map.1 hf
    exact (hφ g hg).wf (h.wf g hg)
  · intro f hf
    obtain ⟨g, hg, rfl⟩ := List.mem_map.1 hf
    have hr := hφ g hg
    have ho := h.own g hg
    exact ⟨by rw [hr.bySeq, hr.start]; exact ho.recs, by rw [hr.max, hr.start]; exact ho.max,
      by rw [hr.max, hr.start]; exact ho.nil⟩
  · intro f hf hm
    obtain ⟨g, hg, rfl⟩ := List.mem_map.1 hf
    rw [(hφ g hg).max] at hm
    rw [him g hg hm]; exact h.emptyW g hg hm
  · intro f hf hm
    obtain ⟨g, hg, rfl⟩ := List.mem_map.1 hf
    rw [(hφ g hg).max] at hm
    rw [(hφ g hg).mstart]; exact h.emptyS g hg hm
  · rw [List.pairwise_map]
    exact h.order.imp_of_mem (fun ha hb hab => (hφ _ ha).before (hφ _ hb) hab)
  · rw [hmin]; exact h.lastF
  · rw [hmin]; exact hls
  · intro hne f hf hlt hb
    obtain ⟨g, hg, rfl⟩ := List.mem_map.1 hf
    rw [(hφ g hg).max] at hb
    rw [(hφ g hg).num, hmin] at hlt
    exact hsy hne g hg hlt hb
  · intro f fs hf
    obtain ⟨g, gs, hg⟩ := List.exists_cons_of_ne_nil h.ne
    simp only [hg, List.map_cons, List.cons.injEq] at hf
    obtain ⟨rfl, -⟩ := hf
    rw [(hφ g (by rw [hg]; simp)).flushed]
    exact h.mark g gs hg
  · rw [h.pend, List.flatMap_map]
    have : ∀ L : List (LogFile K), (∀ f ∈ L, SyncRel f (φ f)) →
        L.flatMap LogFile.pending = L.flatMap (fun f => (φ f).pending) := by
      intro L hL
      induction L with
      | nil => rfl
      | cons f L ih =>
        rw [List.flatMap_cons, List.flatMap_cons, ih (fun g hg => hL g (List.mem_cons_of_mem _ hg)),
          (hL f List.mem_cons_self).pending]
    exact this _ hφ
  · intro fs f hf
    simp only [] at hf
    obtain ⟨gs, g, hg⟩ := h.split_last
    rw [hg, List.map_append] at hf
    have h1 := List.append_inj' hf (by simp)
    have h2 : φ g = f := by simpa using h1.2
    subst h2
    have h3 := hφ g (by rw [hg]; simp)
    rw [h3.max]
    have := h.top gs g hg
    refine ⟨fun hm => ⟨(this.1 hm).1, ?_⟩, this.2⟩
    have h4 := (this.1 hm).2
    rw [h4] at h1; exact h1.1.symm

theorem LogInv.nextSync {l l' : LogMgr K} {A B} (h : LogInv l A B) {φ : LogFile K → LogFile K}
    (hφ : ∀ f ∈ l.files, SyncRel f (φ f)) (e : l'.files = l.files.map φ) : l'.nextSeq = l.nextSeq := by
  obtain ⟨fs, f, hf⟩ := h.split_last
  have h1 : l'.files = fs.map φ ++ [φ f] := by rw [e, hf]; simp
  rw [nextSeq_snoc hf, nextSeq_snoc h1]
  exact (hφ f (by rw [hf]; simp)).nextEq

theorem LogInv.maxSync {l l' : LogMgr K} {A B} (h : LogInv l A B) {φ : LogFile K → LogFile K}
    (hφ : ∀ f ∈ l.files, SyncRel f (φ f)) (h' : LogInv l' A B) (e : l'.files = l.files.map φ) :
    l'.getMaxSeqNum = l.getMaxSeqNum := by
  obtain ⟨fs, f, hf⟩ := h.split_last
  have h1 : l'.files = fs.map φ ++ [φ f] := by rw [e, hf]; simp
  rw [h.getMax_eq hf, h'.getMax_eq h1, (hφ f (by rw [hf]; simp)).max]

/-- Sync marks of one file after `syncFile` without a barrier. -/
theorem flushMemTable_rel (f : LogFile K) (u : Nat) :
    let f1 := (f.flushMemTable u).1
    f1.num = f.num ∧ f1.startSeq = f.startSeq ∧ f1.immutable = f.immutable ∧
    (f1.mem = f.mem ∨ f1.mem = { f.mem with checkpointsDirty := false }) := by
  unfold LogFile.flushMemTable LogFile.maybeClose
  simp only []
  repeat' split
  all_goals (refine ⟨?_, ?_, ?_, ?_⟩ <;> first | rfl | exact Or.inl rfl | exact Or.inr rfl)

theorem maybeClose_rel (f : LogFile K) :
    f.maybeClose.num = f.num ∧ f.maybeClose.startSeq = f.startSeq ∧
    f.maybeClose.immutable = f.immutable ∧ f.maybeClose.mem = f.mem := by
  unfold LogFile.maybeClose; split <;> exact ⟨rfl, rfl, rfl, rfl⟩

theorem flushMemTable_out (f : LogFile K) :
    (f.flushMemTable NIL).2 = NIL ∨ (f.flushMemTable NIL).2 = f.mem.maxSeqNum := by
  unfold LogFile.flushMemTable
  simp only []
  have hv : ¬ (valid NIL = true) := by decide
  repeat' split
  all_goals first
    | exact Or.inl rfl
    | exact Or.inr rfl

theorem syncFile_rel {f : LogFile K} (w : f.mem.WF) (lnTo : Nat) :
    SyncRel f (LogMgr.syncFile 0 lnTo f).1 ∧
    (f.mem.maxSeqNum ≠ NIL → (LogMgr.syncFile 0 lnTo f).1.mem.syncedSeqNum = f.mem.maxSeqNum) ∧
    (lnTo ≤ f.num → (LogMgr.syncFile 0 lnTo f).1.immutable = f.immutable) := by
  have h1 := flushMemTable_rel f NIL
  have h2 := flushMemTable_out f
  have h3 := maybeClose_rel (f.flushMemTable NIL).1
  have hle := w.le_nil
  unfold LogMgr.syncFile
  simp only [ne_eq, not_true, if_false]
  generalize (f.flushMemTable NIL).2 = o at h2 ⊢
  generalize (f.flushMemTable NIL).1 = f1 at h1 h3 ⊢
  generalize f1.maybeClose = f2 at h3 ⊢
  simp only [] at h1
  have hm : f2.mem.maxSeqNum = f.mem.maxSeqNum := by
    rw [h3.2.2.2]; rcases h1.2.2.2 with h | h <;> rw [h]
  have key : SyncRel f (f2.setSyncedSeqNum o) ∧
      (f.mem.maxSeqNum ≠ NIL → (f2.setSyncedSeqNum o).mem.syncedSeqNum = f.mem.maxSeqNum) ∧
      (f2.setSyncedSeqNum o).immutable = f.immutable := by
    have him : f2.immutable = f.immutable := by rw [h3.2.2.1, h1.2.2.1]
    unfold LogFile.setSyncedSeqNum
    rw [hm]
    have hbase : SyncRel f f2 := by
      refine ⟨by rw [h3.1, h1.1], by rw [h3.2.1, h1.2.1], ?_, ?_, ?_, ?_, ?_, ?_, ?_, Or.inl ?_⟩ <;>
        (rw [h3.2.2.2]; rcases h1.2.2.2 with h | h <;> rw [h])
    by_cases hn : f.mem.maxSeqNum = NIL
    · rw [if_pos hn]; exact ⟨hbase, fun h => absurd hn h, him⟩
    · rw [if_neg hn]
      split
      · exact ⟨⟨hbase.num, hbase.start, hbase.mstart, hbase.bySeq, hbase.byKey, hbase.min, hbase.max,
          hbase.alloc, hbase.flushed, Or.inr ⟨hn, rfl⟩⟩, fun _ => rfl, him⟩
      · have : o = f.mem.maxSeqNum := by
          rcases h2 with h | h
          · omega
          · exact h
        exact ⟨⟨hbase.num, hbase.start, hbase.mstart, hbase.bySeq, hbase.byKey, hbase.min, hbase.max,
          hbase.alloc, hbase.flushed, Or.inr ⟨hn, this⟩⟩, fun _ => this, him⟩
  split
  · next hlt =>
    rw [key.1.num] at hlt
    exact ⟨⟨key.1.num, key.1.start, key.1.mstart, key.1.bySeq, key.1.byKey, key.1.min, key.1.max,
      key.1.alloc, key.1.flushed, key.1.synced⟩, key.2.1, fun h => by omega⟩
  · exact ⟨key.1, key.2.1, fun _ => key.2.2⟩

theorem sync_fold {lnFrom a b : Nat} (L : List (LogFile K × Nat)) (h0 : a ≤ lnFrom ∧ lnFrom ≤ b)
    (h : ∀ x ∈ L, x.2 ≠ NIL → a ≤ x.1.num ∧ x.1.num ≤ b) :
    a ≤ L.foldl (fun acc fr => if fr.2 ≠ NIL then fr.1.num else acc) lnFrom ∧
    L.foldl (fun acc fr => if fr.2 ≠ NIL then fr.1.num else acc) lnFrom ≤ b := by
  induction L generalizing lnFrom with
  | nil => exact h0
  | cons x L ih =>
    rw [List.foldl_cons]
    apply ih
    · split
      · next hx => exact h x List.mem_cons_self hx
      · exact h0
    · exact fun y hy => h y (List.mem_cons_of_mem _ hy)

/-- A sync keeps the invariant and all pending records. -/
theorem LogInv.sync {l : LogMgr K} {A B} (h : LogInv l A B) :
    ∃ l', l.sync = (.ok, l') ∧ LogInv l' A B ∧ l'.cfg = l.cfg ∧ l'.maxNum = l.maxNum ∧
      l'.nextSeq = l.nextSeq ∧ l'.getMaxSeqNum = l.getMaxSeqNum := by
  unfold LogMgr.sync
  rw [if_neg (by simp [h.rw]), if_neg (Nat.ne_of_lt h.numN)]
  simp only []
  have hmm : l.minNum ≤ l.maxNum := by
    have := h.minNum_eq
    have : 0 < l.files.length := List.length_pos_iff.2 h.ne
    omega
  have hmN := h.numN
  have hfrom : ∃ lnFrom, lnFrom = (if l.lastSynced ≠ NIL then l.lastSynced else l.minNum) ∧
      l.minNum ≤ lnFrom ∧ lnFrom ≤ l.maxNum ∧
      (∀ f ∈ l.files, f.num < lnFrom → f.mem.maxSeqNum ≠ NIL → f.mem.syncedSeqNum ≠ NIL) := by
    refine ⟨_, rfl, ?_⟩
    by_cases hs : l.lastSynced = NIL
    · rw [if_neg (by simp [hs])]
      exact ⟨Nat.le_refl _, hmm, fun f hf hlt => absurd (h.num_range hf).1 (by omega)⟩
    · rw [if_pos hs]
      rcases h.lastS with h1 | h1
      · exact absurd h1 hs
      · exact ⟨h1.1, h1.2, fun f hf hlt => h.syncedLe hs f hf (Or.inl hlt)⟩
  obtain ⟨lnFrom, e, hl1, hl2, hl3⟩ := hfrom
  rw [← e, if_neg (by omega)]
  rw [h.bar]
  refine ⟨_, rfl, ?_⟩
  have hrel : ∀ f ∈ l.files, SyncRel f (if lnFrom ≤ f.num ∧ f.num ≤ l.maxNum then LogMgr.syncFile 0 l.maxNum f else (f, NIL)).1 := by
    intro f hf
    split
    · exact (syncFile_rel (h.wf f hf) _).1
    · exact SyncRel.rfl' f
  have hb := sync_fold (lnFrom := lnFrom) (a := l.minNum) (b := l.maxNum)
    (l.files.map (fun f => if lnFrom ≤ f.num ∧ f.num ≤ l.maxNum then LogMgr.syncFile 0 l.maxNum f else (f, NIL)))
    ⟨hl1, hl2⟩ (by
      intro x hx _
      obtain ⟨f, hf, rfl⟩ := List.mem_map.1 hx
      rw [(hrel f hf).num]
      exact h.num_range hf)
  generalize (l.files.map (fun f => if lnFrom ≤ f.num ∧ f.num ≤ l.maxNum then LogMgr.syncFile 0 l.maxNum f else (f, NIL))).foldl
    (fun acc fr => if fr.2 ≠ NIL then fr.1.num else acc) lnFrom = ls at hb
  have key := h.mapSync
    (fun f => (if lnFrom ≤ f.num ∧ f.num ≤ l.maxNum then LogMgr.syncFile 0 l.maxNum f else (f, NIL)).1)
    ls hrel (by
      intro f hf hm
      split
      · exact (syncFile_rel (h.wf f hf) _).2.2 (Nat.le_of_eq (h.empty_last hf hm).symm)
      · rfl) (Or.inr hb) (by
      intro _ f hf hlt hne
      have hr := h.num_range hf
      by_cases hc : lnFrom ≤ f.num
      · rw [if_pos ⟨hc, hr.2⟩]
        rw [(syncFile_rel (h.wf f hf) _).2.1 hne]; exact hne
      · rw [if_neg (by omega)]
        exact hl3 f hf (by omega) hne)
  rw [List.map_map]
  rw [h.bar] at key
  exact ⟨key, rfl, rfl, h.nextSync hrel rfl, h.maxSync hrel key rfl⟩

/-- A checkpoint keeps the invariant; its number is the maximum. -/
theorem LogInv.checkpoint {l : LogMgr K} {A B} (h : LogInv l A B) :
    LogInv l.checkpoint.1 A B ∧ l.checkpoint.2 = l.getMaxSeqNum ∧ l.checkpoint.1.cfg = l.cfg ∧
      l.checkpoint.1.maxNum = l.maxNum ∧ l.checkpoint.1.nextSeq = l.nextSeq ∧
      l.checkpoint.1.getMaxSeqNum = l.getMaxSeqNum := by
  obtain ⟨fs, f, hf⟩ := h.split_last
  have hff : f ∈ l.files := by rw [hf]; simp
  have hfi : l.file? l.maxNum = some f := by
    rw [← h.last_num hf]; exact h.file?_mem hff
  have hmax := h.getMax_eq hf
  unfold LogMgr.checkpoint
  simp only [hfi]
  have hmem : ∀ x ∈ l.files, x.num = f.num → x = f := by
    intro x hx e
    have h1 := h.file?_mem hx
    have h2 := h.file?_mem hff
    rw [e] at h1
    exact Option.some.inj (h1.symm.trans h2)
  have hrel1 : SyncRel f { f with mem := f.mem.checkpoint.1, coldChk := f.coldChk || f.immutable } := by
    unfold MemTable.checkpoint
    split
    · exact ⟨rfl, rfl, rfl, rfl, rfl, rfl, rfl, rfl, rfl, Or.inl rfl⟩
    · split <;> exact ⟨rfl, rfl, rfl, rfl, rfl, rfl, rfl, rfl, rfl, Or.inl rfl⟩
  generalize hf' : ({ f with mem := f.mem.checkpoint.1, coldChk := f.coldChk || f.immutable } : LogFile K) = f' at hrel1 ⊢
  have key := h.mapSync (fun g => if g.num == f'.num then f' else g) l.lastSynced
    (by
      intro x hx
      split
      · next e =>
        have : x = f := hmem x hx (by rw [← hrel1.num]; simpa using e)
        rw [this]; exact hrel1
      · exact SyncRel.rfl' x)
    (by
      intro x hx _
      split
      · next e =>
        have : x = f := hmem x hx (by rw [← hrel1.num]; simpa using e)
        rw [this, ← hf']
      · rfl) h.lastS
    (by
      intro hne x hx hlt hb
      split
      · next e =>
        have hxf : x = f := hmem x hx (by rw [← hrel1.num]; simpa using e)
        subst hxf
        have := h.syncedLe hne x hx hlt hb
        rcases hrel1.synced with h1 | h1
        · rw [h1]; exact this
        · rw [h1.2]; exact h1.1
      · exact h.syncedLe hne x hx hlt hb)
  have hset := h.setFile_last (f' := f') hf hrel1.num
  have hkey : LogInv (l.setFile f') A B := key
  refine ⟨hkey, ?_, rfl, rfl, ?_, ?_⟩
  · rw [hmax]; unfold MemTable.checkpoint
    by_cases hm : f.mem.maxSeqNum = NIL
    · simp [hm]
    · rw [if_neg hm, if_pos hm]; split <;> rfl
  · rw [hset, nextSeq_snoc (fs := fs) (f := f') rfl, nextSeq_snoc hf]; exact hrel1.nextEq
  · rw [hmax]; rw [hset] at hkey ⊢
    rw [hkey.getMax_eq (fs := fs) (f := f') rfl, hrel1.max]

end Jungle
