/-
  Opening the log section again: the files and the state that are loaded, and the invariants
  they satisfy.
-/
import Verif.Log.RecoverLemmas

namespace Jungle
open Spec
set_option linter.unusedSectionVars false

variable {K : Type} [LinearOrder K]

/-- The records up to `q`. -/
def cutAt (q : Nat) (L : List (Rec K)) : List (Rec K) := L.filter (fun r => decide (r.seq ≤ q))

theorem cutAt_append (q : Nat) (L N : List (Rec K)) : cutAt q (L ++ N) = cutAt q L ++ cutAt q N :=
  List.filter_append ..

theorem mem_cutAt {q : Nat} {L : List (Rec K)} {r : Rec K} : r ∈ cutAt q L ↔ r ∈ L ∧ r.seq ≤ q := by
  unfold cutAt; rw [List.mem_filter]; simp

theorem cutAt_all {q : Nat} {L : List (Rec K)} (h : ∀ r ∈ L, r.seq ≤ q) : cutAt q L = L := by
  unfold cutAt; rw [List.filter_eq_self]; intro r hr; simpa using h r hr

theorem inc_cutAt (q : Nat) {L : List (Rec K)} (h : Increasing L) : Increasing (cutAt q L) :=
  List.Pairwise.sublist List.filter_sublist h

/-- What is found on disk lets the database go on with the records up to `q`: the manifest lists
    the log files as they are, and each of them holds its records up to `q`, completely. -/
structure LogMgr.Durable (l : LogMgr K) (M : PMani) (disk : List (DFile K)) (q : Nat) : Prop where
  ent : M.entries.map (fun e => (e.num, e.min, e.flushed)) =
    l.files.map (fun f => (f.num, f.mem.minSeqNum, f.mem.flushedSeqNum))
  max : M.max = l.maxNum
  lastF : M.lastFlushed = l.lastFlushed
  lastS : M.lastSynced = NIL ∨ M.lastSynced ≤ l.maxNum
  min : ∀ f ∈ l.files, f.mem.minSeqNum ≠ NIL
  disk : ∀ f ∈ l.files, ∃ items, disk.find? (fun d => d.num == f.num) = some ⟨f.num, items, .clean⟩ ∧
    dataOf items = cutAt q f.mem.bySeq ∧ dataOf items ≠ [] ∧
    (f.mem.flushedSeqNum ≠ NIL → ∃ r ∈ dataOf items, f.mem.flushedSeqNum ≤ r.seq)

/-! ### the loaded memtable -/

theorem loadItem_with (m : MemTable K) (x : DItem K) (a : Nat)
    (hx : ∀ r, x = .data r → ∀ y ∈ m.bySeq, y.seq < r.seq) :
    MemTable.loadItem { m with maxSeqNum := a, seqNumAlloc := a } x =
      { MemTable.loadItem m x with maxSeqNum := a, seqNumAlloc := a } := by
  cases x with
  | data r =>
    have hany : m.bySeq.any (fun y => y.seq == r.seq) = false := by
      rw [List.any_eq_false]
      intro y hy
      have := hx r rfl y hy
      simp only [beq_iff_eq]; omega
    have e : ∀ mm : MemTable K, mm.bySeq = m.bySeq → MemTable.addToBySeqIndex mm r =
        { mm with bySeq := MemTable.insertBySeq r m.bySeq } := by
      intro mm hm
      unfold MemTable.addToBySeqIndex
      rw [hm, hany, if_neg (by simp)]
    unfold MemTable.loadItem
    by_cases hc : r.isCmd = true
    · simp only [hc, if_true]
      rw [e m rfl, e { m with maxSeqNum := a, seqNumAlloc := a } rfl]
    · simp only [hc]
      rw [e m rfl, e { m with maxSeqNum := a, seqNumAlloc := a } rfl]
      rfl
  | flushMarker s => rfl
  | checkpoint c =>
    unfold MemTable.loadItem
    simp only []
    split <;> rfl

theorem loadItems_with (items : List (DItem K)) (m : MemTable K) (a : Nat) (h : m.Idx)
    (hinc : Increasing (m.bySeq ++ dataOf items)) :
    items.foldl MemTable.loadItem { m with maxSeqNum := a, seqNumAlloc := a } =
      { items.foldl MemTable.loadItem m with maxSeqNum := a, seqNumAlloc := a } := by
  induction items generalizing m with
  | nil => rfl
  | cons x items ih =>
    rw [List.foldl_cons, List.foldl_cons]
    obtain ⟨h1, h2, -⟩ := loadItems_ok [x] m h (by
      refine List.Pairwise.sublist ?_ hinc
      refine List.Sublist.append_left ?_ _
      cases x <;> simp [dataOf])
    rw [loadItem_with m x a (by
      rintro r rfl y hy
      exact (List.pairwise_append.1 hinc).2.2 y hy r (by simp [dataOf]))]
    refine ih _ h1 ?_
    rw [List.foldl_cons, List.foldl_nil] at h2
    rw [h2, List.append_assoc, ← dataOf_append]
    exact hinc

/-- The last argument matters only for a file without records. -/
theorem load_irrel {items : List (DItem K)} (h : dataOf items ≠ []) (hinc : Increasing (dataOf items)) (a b c c' : Nat) :
    MemTable.load items a b c = MemTable.load items a b c' := by
  unfold MemTable.load
  simp only []
  cases hl : (dataOf items).getLast? with
  | none => rw [List.getLast?_eq_none_iff] at hl; exact absurd hl h
  | some r =>
    have e1 := loadItems_with items ({ startSeqNum := a, minSeqNum := a, flushedSeqNum := b, maxSeqNum := c', seqNumAlloc := c' } : MemTable K) c
      ⟨List.Pairwise.nil, fun k => by simp [SMap.find?, keyRecs]⟩ (by simpa using hinc)
    simp only [] at e1 ⊢
    rw [e1]

/-- The file that is loaded. -/
def reload (disk : List (DFile K)) (f : LogFile K) : LogFile K :=
  match LogFile.load disk f.num f.mem.minSeqNum f.mem.flushedSeqNum NIL with
  | some g => g
  | none => f

/-- What loading makes of a file. -/
structure Reloaded (q : Nat) (f f' : LogFile K) : Prop where
  num : f'.num = f.num
  start : f'.startSeq = f.mem.minSeqNum
  mstart : f'.mem.startSeqNum = f.mem.minSeqNum
  min : f'.mem.minSeqNum = f.mem.minSeqNum
  flushed : f'.mem.flushedSeqNum = f.mem.flushedSeqNum
  bySeq : f'.mem.bySeq = cutAt q f.mem.bySeq
  data : dataOf f'.disk = f'.mem.bySeq
  idx : f'.mem.Idx
  last : ∃ r ∈ f'.mem.bySeq, r.seq = f'.mem.maxSeqNum
  le : ∀ r ∈ f'.mem.bySeq, r.seq ≤ f'.mem.maxSeqNum
  alloc : f'.mem.seqNumAlloc = f'.mem.maxSeqNum
  synced : f'.mem.syncedSeqNum = f'.mem.maxSeqNum
  fl : f.mem.flushedSeqNum ≠ NIL → f.mem.flushedSeqNum ≤ f'.mem.maxSeqNum
  imm : f'.immutable = true
  torn : f'.torn = false
  integ : f'.integrity = .unknown

theorem load_eq {disk : List (DFile K)} {f : LogFile K} {items : List (DItem K)}
    (hd : disk.find? (fun d => d.num == f.num) = some ⟨f.num, items, .clean⟩) (hne : dataOf items ≠ [])
    (hinc : Increasing (dataOf items)) (c : Nat) :
    LogFile.load disk f.num f.mem.minSeqNum f.mem.flushedSeqNum c = some (reload disk f) := by
  unfold reload LogFile.load
  rw [hd]
  simp only [reduceCtorEq, if_false, if_true]
  rw [load_irrel hne hinc _ _ c NIL]

theorem reload_ok {disk : List (DFile K)} {f : LogFile K} {items : List (DItem K)} {q : Nat}
    (hd : disk.find? (fun d => d.num == f.num) = some ⟨f.num, items, .clean⟩)
    (hda : dataOf items = cutAt q f.mem.bySeq) (hne : dataOf items ≠ [])
    (hfl : f.mem.flushedSeqNum ≠ NIL → ∃ r ∈ dataOf items, f.mem.flushedSeqNum ≤ r.seq)
    (hinc : Increasing f.mem.bySeq) : Reloaded q f (reload disk f) ∧ (reload disk f).disk = items ∧
      (reload disk f).mem = MemTable.load items f.mem.minSeqNum f.mem.flushedSeqNum NIL := by
  have hI : Increasing (dataOf items) := by rw [hda]; exact inc_cutAt q hinc
  have hl := load_ok items f.mem.minSeqNum f.mem.flushedSeqNum NIL hI
  have hk := hl.look hI
  obtain ⟨L, x, hx⟩ := List.eq_nil_or_concat (dataOf items) |>.resolve_left hne
  rw [List.concat_eq_append] at hx
  obtain ⟨s1, s2, s3⟩ := hl.some x (by rw [hx]; simp)
  have e : ∃ o i, reload disk f = { num := f.num, startSeq := f.mem.minSeqNum, mem := MemTable.load items f.mem.minSeqNum f.mem.flushedSeqNum NIL, immutable := true, fOpen := o, integrity := .unknown, disk := items, torn := false, coldChk := i } := by
    unfold reload LogFile.load
    rw [hd]
    simp only [reduceCtorEq, if_false, if_true]
    unfold LogFile.maybeClose
    split
    · exact ⟨_, _, rfl⟩
    · exact ⟨_, _, rfl⟩
  obtain ⟨o, i, e⟩ := e
  rw [e]
  refine ⟨⟨rfl, rfl, hl.start, hl.min, hl.flushed, by rw [← hda]; exact hl.bySeq, hl.bySeq.symm, hl.idx, ?_, hk.le,
    by show _ = _; rw [s2, s1], by show _ = _; rw [s3, s1], ?_, rfl, rfl, rfl⟩, rfl, rfl⟩
  · refine ⟨x, ?_, s1.symm⟩
    show x ∈ (MemTable.load items f.mem.minSeqNum f.mem.flushedSeqNum NIL).bySeq
    rw [hl.bySeq, hx]; simp
  · intro h0
    obtain ⟨r, hr, hle⟩ := hfl h0
    have := hk.le r (by rw [hl.bySeq]; exact hr)
    exact Nat.le_trans hle this

/-! ### the loading loop -/

theorem loadLoop_all (disk : List (DFile K)) (F : List (LogFile K)) (E : List PEntry) (s : LoadSt K)
    (hE : E.map (fun e => (e.num, e.min, e.flushed)) = F.map (fun f => (f.num, f.mem.minSeqNum, f.mem.flushedSeqNum)))
    (hmin : ∀ f ∈ F, f.mem.minSeqNum ≠ NIL)
    (hdisk : ∀ f ∈ F, ∃ items, disk.find? (fun d => d.num == f.num) = some ⟨f.num, items, .clean⟩ ∧ dataOf items ≠ [] ∧
      Increasing (dataOf items))
    (hF : s.lastFlushed = NIL ∨ ∀ f ∈ F, s.lastFlushed ≤ f.num) (mx : Nat)
    (hS : s.lastSynced = NIL ∨ s.lastSynced ≤ mx) (hle : ∀ f ∈ F, f.num ≤ mx)
    (hlast : ∀ f, F.getLast? = some f → f.num = mx) (hne : F ≠ []) :
    ∃ q, LogMgr.loadLoop disk E s =
      { files := s.files ++ F.map (reload disk), maxNum := s.maxNum, lastFlushed := s.lastFlushed
        lastSynced := mx, lastSeq := q, firstRead := true } := by
  induction F generalizing E s with
  | nil => exact absurd rfl hne
  | cons f F ih =>
    obtain ⟨e, E', rfl⟩ : ∃ e E', E = e :: E' := by
      cases E with
      | nil => cases hE
      | cons e E => exact ⟨e, E, rfl⟩
    simp only [List.map_cons, List.cons.injEq, Prod.mk.injEq] at hE
    obtain ⟨⟨e1, e2, e3⟩, hE'⟩ := hE
    obtain ⟨items, hd, hdn, hdi⟩ := hdisk f (by simp)
    have hns : (valid s.lastFlushed && decide (e.num < s.lastFlushed)) = false := by
      rcases hF with h | h
      · simp [h, valid]
      · have := h f (by simp)
        have : ¬ e.num < s.lastFlushed := by omega
        simp [this]
    have hv : valid e.min = true := by
      have := hmin f (by simp)
      rw [← e2] at this
      simp [valid, this]
    unfold LogMgr.loadLoop
    simp only [hns, Bool.false_eq_true, if_false, hv, Bool.not_true, Bool.false_and]
    rw [e1, e2, e3, load_eq hd hdn hdi]
    simp only []
    by_cases hFn : F = []
    · subst hFn
      have hE0 : E' = [] := by cases E' with
        | nil => rfl
        | cons _ _ => cases hE'
      subst hE0
      have hfm : f.num = mx := hlast f rfl
      refine ⟨if valid e.synced = true then e.synced else s.lastSeq, ?_⟩
      simp only [LogMgr.loadLoop, List.map_cons, List.map_nil]
      have : (if (!valid s.lastSynced || decide (s.lastSynced < f.num)) = true then f.num else s.lastSynced) = mx := by
        rcases hS with h | h
        · simp [h, valid, hfm]
        · split
          · exact hfm
          · next hc =>
            simp only [Bool.or_eq_true, decide_eq_true_eq, not_or] at hc
            omega
      rw [this]
    · obtain ⟨q, hq⟩ := ih E' { s with
          files := s.files ++ [reload disk f]
          lastSeq := if valid e.synced = true then e.synced else s.lastSeq
          firstRead := true
          lastSynced := if (!valid s.lastSynced || decide (s.lastSynced < f.num)) = true then f.num else s.lastSynced }
        hE' (fun g hg => hmin g (by simp [hg])) (fun g hg => hdisk g (by simp [hg]))
        (by
          rcases hF with h | h
          · exact Or.inl h
          · exact Or.inr (fun g hg => h g (by simp [hg])))
        (by
          right
          have := hle f (by simp)
          simp only []
          split
          · exact this
          · next hc =>
            rcases hS with h | h
            · simp [h, valid] at hc
            · exact h)
        (fun g hg => hle g (by simp [hg]))
        (fun g hg => hlast g (by rw [List.getLast?_cons, hg]; rfl)) hFn
      refine ⟨q, ?_⟩
      rw [hq]
      simp

/-- The log section after it is opened again. -/
def LogMgr.reloaded (l : LogMgr K) (cfg : Cfg) (disk : List (DFile K)) : LogMgr K :=
  { cfg := cfg, files := l.files.map (reload disk), maxNum := l.maxNum, lastFlushed := l.lastFlushed
    lastSynced := l.maxNum }

theorem LogMgr.Durable.recover {l : LogMgr K} {M : PMani} {disk : List (DFile K)} {q : Nat} (hD : l.Durable M disk q)
    {A B : List (Rec K)} (h : LogInv l A B) (cfg : Cfg) : LogMgr.recover cfg M disk = l.reloaded cfg disk := by
  obtain ⟨fs, g, hg⟩ := h.split_last
  obtain ⟨x, hx⟩ := loadLoop_all disk l.files M.entries
    { files := [], maxNum := M.max, lastFlushed := M.lastFlushed, lastSynced := M.lastSynced, lastSeq := NIL, firstRead := false }
    hD.ent hD.min (fun f hf => by obtain ⟨i, h1, h3, h2, -⟩ := hD.disk f hf; exact ⟨i, h1, h2, by rw [h3]; exact inc_cutAt q (h.wf f hf).sorted⟩)
    (by
      simp only []
      rw [hD.lastF]
      rcases h.lastF with h1 | h1
      · exact Or.inl h1
      · right; rw [h1]; exact fun f hf => (h.num_range hf).1)
    l.maxNum hD.lastS (fun f hf => (h.num_range hf).2)
    (by
      intro f hf
      rw [hg] at hf
      simp only [List.getLast?_append, List.getLast?_singleton, Option.some_or] at hf
      cases hf
      exact h.last_num hg) h.ne
  unfold LogMgr.recover
  simp only [hx, List.nil_append]
  rw [if_neg (by simp [h.ne])]
  unfold LogMgr.reloaded
  rw [hD.max, hD.lastF]

theorem LogMgr.Durable.reloaded {l : LogMgr K} {M : PMani} {disk : List (DFile K)} {q : Nat} (hD : l.Durable M disk q)
    {A B : List (Rec K)} (h : LogInv l A B) {f : LogFile K} (hf : f ∈ l.files) : Reloaded q f (reload disk f) := by
  obtain ⟨items, h1, h2, h3, h4⟩ := hD.disk f hf
  exact (reload_ok h1 h2 h3 h4 (h.wf f hf).sorted).1

theorem Reloaded.mem {q : Nat} {f f' : LogFile K} (h : Reloaded q f f') {r : Rec K} (hr : r ∈ f'.mem.bySeq) :
    r ∈ f.mem.bySeq ∧ r.seq ≤ q := by
  rw [h.bySeq] at hr; exact mem_cutAt.1 hr

theorem Reloaded.bounds {q : Nat} {f f' : LogFile K} (h : Reloaded q f f') (w : f.mem.WF) :
    f'.mem.maxSeqNum ≤ f.mem.maxSeqNum ∧ f.mem.minSeqNum ≤ f'.mem.maxSeqNum ∧ f'.mem.maxSeqNum < NIL ∧
      f'.mem.maxSeqNum ≤ q ∧ f.mem.maxSeqNum ≠ NIL := by
  obtain ⟨r, hr, e⟩ := h.last
  obtain ⟨h1, h2⟩ := h.mem hr
  have := w.bound r h1
  rw [← e]
  refine ⟨this.2.1, this.1, this.2.2.2, h2, ?_⟩
  intro hn
  rw [(w.nil hn).1] at h1; cases h1

theorem Reloaded.pending {q : Nat} {f f' : LogFile K} (h : Reloaded q f f') : f'.pending = cutAt q f.pending := by
  unfold LogFile.pending
  rw [h.bySeq, h.flushed]
  unfold cutAt
  rw [List.filter_filter, List.filter_filter]
  congr 1
  funext r
  exact Bool.and_comm _ _

theorem Reloaded.wf {q : Nat} {f f' : LogFile K} (h : Reloaded q f f') (w : f.mem.WF) : f'.mem.WF := by
  obtain ⟨b1, b2, b3, b4, b5⟩ := h.bounds w
  refine ⟨by rw [h.bySeq]; exact inc_cutAt q w.sorted, h.idx.keys, h.idx.weak, h.alloc, ?_, Nat.le_of_lt b3, ?_, ?_, ?_, ?_, ?_⟩
  · intro e; omega
  · intro r hr
    have := w.bound r (h.mem hr).1
    exact ⟨by rw [h.min]; exact this.1, h.le r hr, this.2.2⟩
  · intro _; rw [h.min]; omega
  · rw [h.synced]; exact Or.inr ⟨Nat.le_refl _, b3⟩
  · rw [h.flushed]
    by_cases hn : f.mem.flushedSeqNum = NIL
    · exact Or.inl hn
    · exact Or.inr ⟨h.fl hn, b3⟩
  · rw [h.flushed, h.synced]
    by_cases hn : f.mem.flushedSeqNum = NIL
    · exact Or.inr (Or.inl hn)
    · exact Or.inr (Or.inr (h.fl hn))

theorem Reloaded.before {q : Nat} {f g f' g' : LogFile K} (hf : Reloaded q f f') (hg : Reloaded q g g')
    (wf : f.mem.WF) (wg : g.mem.WF) (hgm : g.mem.minSeqNum ≠ NIL) (h : Before f g) : Before f' g' := by
  obtain ⟨a1, a2, a3, a4, a5⟩ := hf.bounds wf
  obtain ⟨b1, b2, b3, b4, b5⟩ := hg.bounds wg
  have hm := h.min a5 hgm
  refine ⟨by rw [hf.num, hg.num]; exact h.num, fun _ => ⟨by omega, by omega⟩, ?_, ?_, ?_, ?_, ?_, ?_, by omega⟩
  · intro _ r hr
    have := h.recs a5 r (hg.mem hr).1
    omega
  · intro _ _; rw [hg.min]; omega
  · intro _ _; rw [hg.synced]; omega
  · intro _; rw [hg.start]; omega
  · rw [hg.flushed]; exact h.flushed
  · rw [hf.start, hg.start]; omega

theorem flatMap_cutAt (q : Nat) (F : List (LogFile K)) (disk : List (DFile K))
    (h : ∀ f ∈ F, Reloaded q f (reload disk f)) :
    (F.map (reload disk)).flatMap LogFile.pending = cutAt q (F.flatMap LogFile.pending) ∧
    (F.map (reload disk)).flatMap (·.mem.bySeq) = cutAt q (F.flatMap (·.mem.bySeq)) := by
  induction F with
  | nil => exact ⟨rfl, rfl⟩
  | cons f F ih =>
    obtain ⟨i1, i2⟩ := ih (fun g hg => h g (by simp [hg]))
    have hf := h f (by simp)
    simp only [List.map_cons, List.flatMap_cons, cutAt_append]
    rw [i1, i2, hf.pending, hf.bySeq]
    exact ⟨rfl, rfl⟩

/-- The records below the flush mark stay. -/
theorem LogMgr.Durable.flushedLe {l : LogMgr K} {M : PMani} {disk : List (DFile K)} {q : Nat} (hD : l.Durable M disk q)
    {A B : List (Rec K)} (h : LogInv l A B) : ∀ r ∈ A, r.seq ≤ q := by
  intro r hr
  obtain ⟨f, fs, hf⟩ := List.exists_cons_of_ne_nil h.ne
  obtain ⟨h1, h2⟩ := h.mark f fs hf r hr
  have hff : f ∈ l.files := by rw [hf]; simp
  have hR := hD.reloaded h hff
  have := hR.fl h1
  have := (hR.bounds (h.wf f hff)).2.2.2.1
  omega

/-- The invariant of the log section after it is opened again. -/
theorem LogMgr.Durable.inv {l : LogMgr K} {M : PMani} {disk : List (DFile K)} {q : Nat} (hD : l.Durable M disk q)
    {A B : List (Rec K)} (h : LogInv l A B) {cfg : Cfg} (h1 : cfg.readOnly = false) (h2 : cfg.allowOverwrite = false)
    (h3 : 0 < cfg.maxEntries) : LogInv (l.reloaded cfg disk) A (cutAt q B) := by
  have hR := fun f hf => hD.reloaded h (f := f) hf
  have hwf : ∀ f ∈ l.files, (reload disk f).mem.WF := fun f hf => (hR f hf).wf (h.wf f hf)
  have hb := fun f hf => (hR f hf).bounds (h.wf f hf)
  have hmin : (l.reloaded cfg disk).minNum = l.minNum := by
    unfold LogMgr.minNum LogMgr.reloaded
    cases hf : l.files with
    | nil => rfl
    | cons f fs => exact (hR f (by rw [hf]; simp)).num
  have horder : (l.files.map (reload disk)).Pairwise Before := by
    rw [List.pairwise_map]
    exact List.Pairwise.imp_of_mem (fun {f g} hf hg hfg => (hR f hf).before (hR g hg) (h.wf f hf) (h.wf g hg) (hD.min g hg) hfg) h.order
  refine ⟨h1, h2, rfl, by simp [LogMgr.reloaded, h.ne], ?_, h.numN, ?_, ?_, h3, ?_, ?_, horder, ?_, ?_, ?_, ?_, ?_, ?_, ?_⟩
  · obtain ⟨a, n1, n2⟩ := h.nums
    refine ⟨a, ?_, by simpa [LogMgr.reloaded] using n2⟩
    simp only [LogMgr.reloaded, List.map_map, List.length_map]
    rw [← n1]
    exact List.map_congr_left (fun f hf => (hR f hf).num)
  · intro f' hf'
    obtain ⟨f, hf, rfl⟩ := List.mem_map.1 hf'
    exact hwf f hf
  · intro f' hf'
    obtain ⟨f, hf, rfl⟩ := List.mem_map.1 hf'
    have hr := hR f hf
    have hbb := hb f hf
    refine ⟨?_, ?_, ?_⟩
    · intro r hr'
      rw [hr.start]; exact ((h.wf f hf).bound r (hr.mem hr').1).1
    · intro _; rw [hr.start]; omega
    · intro e; omega
  · intro f' hf' e
    obtain ⟨f, hf, rfl⟩ := List.mem_map.1 hf'
    have := hb f hf; omega
  · intro f' hf' e
    obtain ⟨f, hf, rfl⟩ := List.mem_map.1 hf'
    have := hb f hf; omega
  · rw [hmin]; exact h.lastF
  · rw [hmin]; exact Or.inr ⟨h.min_le_max, Nat.le_refl _⟩
  · intro _ f' hf' _ _
    obtain ⟨f, hf, rfl⟩ := List.mem_map.1 hf'
    have := hb f hf
    rw [(hR f hf).synced]; omega
  · intro f' fs' hf' r hr
    obtain ⟨f, fs, hf⟩ := List.exists_cons_of_ne_nil h.ne
    simp only [LogMgr.reloaded, hf, List.map_cons, List.cons.injEq] at hf'
    rw [← hf'.1, (hR f (by rw [hf]; simp)).flushed]
    exact h.mark f fs hf r hr
  · rw [h.pend]; exact (flatMap_cutAt q l.files disk hR).1.symm
  · have : A ++ cutAt q B = cutAt q (A ++ B) := by
      rw [cutAt_append, cutAt_all (hD.flushedLe h)]
    rw [this]; exact inc_cutAt q h.inc
  · intro fs' f' hf'
    obtain ⟨fs, f, hf⟩ := h.split_last
    have hff : f ∈ l.files := by rw [hf]; simp
    have hbb := hb f hff
    simp only [LogMgr.reloaded, hf, List.map_append, List.map_cons, List.map_nil] at hf'
    obtain ⟨hfs, hf1⟩ := List.append_inj' hf' rfl
    simp only [List.cons.injEq, and_true] at hf1
    subst hf1
    refine ⟨fun e => by omega, fun _ r hr => ?_⟩
    have hle : ∀ g ∈ l.files, (reload disk g).mem.maxSeqNum ≤ (reload disk f).mem.maxSeqNum := by
      intro g hg
      rw [hf] at hg
      rcases List.mem_append.1 hg with hg | hg
      · have hgl : g ∈ l.files := by rw [hf]; simp [hg]
        rw [hf, List.map_append, List.map_cons, List.map_nil] at horder
        have := (List.pairwise_append.1 horder).2.2 _ (List.mem_map_of_mem hg) (reload disk f) (by simp)
        have h5 := hb g hgl
        exact (this.max (by omega)).2
      · rw [List.mem_singleton.1 hg]; exact Nat.le_refl _
    rcases List.mem_append.1 hr with hr | hr
    · obtain ⟨g, gs, hg⟩ := List.exists_cons_of_ne_nil h.ne
      have hgl : g ∈ l.files := by rw [hg]; simp
      obtain ⟨m1, m2⟩ := h.mark g gs hg r hr
      have := (hR g hgl).fl m1
      have := hle g hgl
      omega
    · rw [h.pend, ← (flatMap_cutAt q l.files disk hR).1] at hr
      obtain ⟨g', hg', hrg⟩ := List.mem_flatMap.1 hr
      obtain ⟨g, hg, rfl⟩ := List.mem_map.1 hg'
      have := (hR g hg).le r (by unfold LogFile.pending at hrg; exact (List.mem_filter.1 hrg).1)
      have := hle g hg
      omega

/-- … and what it holds on disk. -/
theorem LogMgr.Durable.store {l : LogMgr K} {M : PMani} {disk : List (DFile K)} {q : Nat} (hD : l.Durable M disk q)
    {A B : List (Rec K)} (h : LogInv l A B) (cfg : Cfg) : SInv (l.reloaded cfg disk) := by
  have hR := fun f hf => hD.reloaded h (f := f) hf
  have hb := fun f hf => (hR f hf).bounds (h.wf f hf)
  have hsf : (l.reloaded cfg disk).syncFrom = l.maxNum := by
    unfold LogMgr.syncFrom LogMgr.reloaded
    rw [if_pos (Nat.ne_of_lt h.numN)]
  refine ⟨?_, ?_, ?_, ?_, ?_⟩ <;> intro f' hf' <;> obtain ⟨f, hf, rfl⟩ := List.mem_map.1 hf' <;> have hr := hR f hf <;>
    have hbb := hb f hf
  · refine ⟨by rw [hr.data, hr.bySeq]; exact inc_cutAt q (h.wf f hf).sorted, fun r hr' => by rw [← hr.data]; exact hr', ?_, ?_, ?_,
      hr.torn, by rw [hr.integ]; simp, fun _ => by rw [hr.min]; exact hD.min f hf⟩
    · intro _ r hr'; rw [hr.synced]; exact hr.le r (by rw [← hr.data]; exact hr')
    · intro e; rw [hr.synced] at e; omega
    · intro _
      have : (reload disk f).stored = (reload disk f).pending := by
        unfold LogFile.stored LogFile.pending above; rw [hr.data]
      rw [this]
      symm
      rw [List.filter_eq_self]
      intro r hr'
      rw [hr.synced]
      simpa using hr.le r (by unfold LogFile.pending at hr'; exact (List.mem_filter.1 hr').1)
  · intro _; exact hr.synced
  · intro hlt
    rw [hsf, hr.num] at hlt
    have := (h.num_range hf).2
    omega
  · intro _ _ hd
    have h5 := hr.data
    rw [hd] at h5
    obtain ⟨r, hr', -⟩ := hr.last
    rw [← h5] at hr'; cases hr'
  · intro _; exact Or.inr hsf

end Jungle
