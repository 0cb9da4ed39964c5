/-
  The log section of a database without tables: evicted memtables, and opening it again.
-/
import Verif.Log.LogStore
import Verif.Log.RollbackLemmas
import Verif.Log.Reopen

namespace Jungle
open Spec
set_option linter.unusedSectionVars false

variable {K : Type} [LinearOrder K]

/-! ### the checks -/

def okEntries : Nat → List PEntry → Prop
  | _, [] => True
  | ls, e :: rest => e.invalid rest.isEmpty ls = false ∧ okEntries (if valid e.synced then e.synced else ls) rest

/-- If no file fails the checks, they change nothing. -/
theorem loadOnly_eq (trunc : Bool) (disk : List (DFile K)) (E : List PEntry) (s : LoadSt K)
    (h : trunc = true → okEntries s.lastSeq E) : LogMgr.loadOnly trunc disk E s = LogMgr.loadLoop disk E s := by
  induction E generalizing s with
  | nil => rfl
  | cons e E ih =>
    unfold LogMgr.loadOnly LogMgr.loadLoop
    have h1 : (trunc && e.invalid E.isEmpty s.lastSeq) = false := by
      cases trunc with
      | false => rfl
      | true => exact (h rfl).1
    rw [if_neg (by simp [h1])]
    simp only []
    have h2 : trunc = true → okEntries (if valid e.synced then e.synced else s.lastSeq) E := fun ht => (h ht).2
    generalize LogFile.load disk e.num (if (!valid e.min && valid (if valid e.synced then e.synced else s.lastSeq)) = true then (if valid e.synced then e.synced else s.lastSeq) + 1 else e.min) e.flushed (if (!valid e.synced && valid (if valid e.synced then e.synced else s.lastSeq)) = true then (if valid e.synced then e.synced else s.lastSeq) else e.synced) = o
    split
    · exact ih _ h2
    · cases o with
      | some f => exact ih _ h2
      | none =>
        simp only []
        split
        · exact ih _ h2
        · rfl

theorem recoverOnly_eq (cfg : Cfg) (trunc : Bool) (M : PMani) (disk : List (DFile K))
    (h : trunc = true → okEntries NIL M.entries) : LogMgr.recoverOnly cfg trunc M disk = LogMgr.recover cfg M disk := by
  unfold LogMgr.recoverOnly LogMgr.recover
  rw [loadOnly_eq trunc disk M.entries _ h]

theorem Spec.Consecutive.suffix {X Y : List (Rec K)} (h : Consecutive (X ++ Y)) : Consecutive Y :=
  fun L a b R e => h (X ++ L) a b R (by rw [e, List.append_assoc])

/-- A list of files with consecutive numbers passes the checks. -/
theorem okEntries_files (F : List (LogFile K)) (s : Nat)
    (hne : ∀ f ∈ F, f.mem.minSeqNum ≠ NIL ∧ f.mem.syncedSeqNum ≠ NIL ∧ f.mem.minSeqNum ≤ f.mem.syncedSeqNum)
    (hmn : ∀ f ∈ F, ∃ r R, f.mem.bySeq = r :: R ∧ r.seq = f.mem.minSeqNum)
    (htp : ∀ P f g R, F = P ++ f :: g :: R → ∃ L r, f.mem.bySeq = L ++ [r] ∧ r.seq = f.mem.syncedSeqNum)
    (hs : s = NIL ∨ ∀ f R, F = f :: R → f.mem.minSeqNum = s + 1)
    (hc : Consecutive (F.flatMap (·.mem.bySeq))) :
    okEntries s (F.map (fun f => ({ num := f.num, min := f.mem.minSeqNum, flushed := f.mem.flushedSeqNum
                                    synced := f.mem.syncedSeqNum } : PEntry))) := by
  induction F generalizing s with
  | nil => trivial
  | cons f F ih =>
    obtain ⟨h1, h2, h3⟩ := hne f (by simp)
    refine ⟨?_, ?_⟩
    · unfold PEntry.invalid
      simp only [valid_iff.2 h1, valid_iff.2 h2, Bool.true_and, Bool.not_true, Bool.and_false, Bool.or_false]
      have : decide (f.mem.minSeqNum > f.mem.syncedSeqNum) = false := by simp; omega
      rw [this, Bool.false_or]
      rcases hs with rfl | hs
      · simp [valid]
      · have e := hs f F rfl
        simp [e]
    · simp only [valid_iff.2 h2, if_true]
      refine ih _ (fun g hg => hne g (by simp [hg])) (fun g hg => hmn g (by simp [hg]))
        (fun P g g' R e => htp (f :: P) g g' R (by rw [e]; rfl)) (Or.inr ?_)
        (by rw [List.flatMap_cons] at hc; exact hc.suffix)
      intro g R e
      subst e
      obtain ⟨L, x, hx, ex⟩ := htp [] f g R rfl
      obtain ⟨y, R', hy, ey⟩ := hmn g (by simp)
      have := hc L x y (R' ++ R.flatMap (·.mem.bySeq)) (by
        simp only [List.flatMap_cons, hx, hy]; simp)
      rw [← ex, ← ey, this]

/-! ### an evicted memtable -/

/-- The file holds the same records as before. -/
structure SameRecs (f f' : LogFile K) : Prop where
  num : f'.num = f.num
  start : f'.startSeq = f.startSeq
  bySeq : f'.mem.bySeq = f.mem.bySeq
  min : f'.mem.minSeqNum = f.mem.minSeqNum
  max : f'.mem.maxSeqNum = f.mem.maxSeqNum
  flushed : f'.mem.flushedSeqNum = f.mem.flushedSeqNum
  synced : f'.mem.syncedSeqNum = f.mem.syncedSeqNum
  wf : f'.mem.WF
  empty : f.mem.maxSeqNum = NIL → f' = f
  disk : f'.disk = f.disk
  imm : f'.immutable = f.immutable
  store : StoreOk f → StoreOk f'

theorem SameRecs.rfl' {f : LogFile K} (w : f.mem.WF) : SameRecs f f :=
  ⟨rfl, rfl, rfl, rfl, rfl, rfl, rfl, w, fun _ => rfl, rfl, rfl, id⟩

theorem SameRecs.before {f f' g g' : LogFile K} (hf : SameRecs f f') (hg : SameRecs g g')
    (h : Before f g) : Before f' g' := by
  refine ⟨?_, ?_, ?_, ?_, ?_, ?_, ?_, by rw [hf.start, hg.start]; exact h.startLe, by rw [hf.max]; exact h.ne⟩
  · rw [hf.num, hg.num]; exact h.num
  · rw [hf.max, hg.max]; exact h.max
  · rw [hf.max, hg.bySeq]; exact h.recs
  · rw [hf.max, hg.min]; exact h.min
  · rw [hf.max, hg.synced]; exact h.synced
  · rw [hf.max, hg.start]; exact h.start
  · rw [hg.flushed]; exact h.flushed

theorem LRInv.mapSame {l : LogMgr K} {B} (hr : LRInv l B) (φ : LogFile K → LogFile K)
    (hφ : ∀ f ∈ l.files, SameRecs f (φ f)) :
    LRInv { l with files := l.files.map φ } B ∧ ({ l with files := l.files.map φ } : LogMgr K).getMaxSeqNum = l.getMaxSeqNum := by
  have h := hr.log
  have hmin : ({ l with files := l.files.map φ } : LogMgr K).minNum = l.minNum := by
    unfold LogMgr.minNum
    cases hf : l.files with
    | nil => rfl
    | cons f fs => simp only [List.map_cons]; exact (hφ f (by rw [hf]; simp)).num
  have hpend : ∀ f ∈ l.files, (φ f).pending = f.pending := by
    intro f hf
    unfold LogFile.pending
    rw [(hφ f hf).bySeq, (hφ f hf).flushed]
  have hL : LogInv { l with files := l.files.map φ } [] B := by
    refine ⟨h.rw, h.noOv, h.bar, by simp [h.ne], ?_, h.numN, ?_, ?_, h.entries, ?_, ?_, ?_, ?_, ?_, ?_, ?_, ?_, h.inc, ?_⟩
    · obtain ⟨a, h1, h2⟩ := h.nums
      refine ⟨a, ?_, by simpa using h2⟩
      simp only [List.length_map, List.map_map]
      rw [← h1]
      exact List.map_congr_left (fun f hf => (hφ f hf).num)
    · intro f hf
      obtain ⟨g, hg, rfl⟩ := List.mem_map.1 hf
      exact (hφ g hg).wf
    · intro f hf
      obtain ⟨g, hg, rfl⟩ := List.mem_map.1 hf
      have hr := hφ g hg
      have ho := h.own g hg
      exact ⟨by rw [hr.bySeq, hr.start]; exact ho.recs, by rw [hr.max, hr.start]; exact ho.max,
        by rw [hr.max, hr.start]; exact ho.nil⟩
    · intro f hf hm
      obtain ⟨g, hg, rfl⟩ := List.mem_map.1 hf
      rw [(hφ g hg).max] at hm
      rw [(hφ g hg).empty hm]; exact h.emptyW g hg hm
    · intro f hf hm
      obtain ⟨g, hg, rfl⟩ := List.mem_map.1 hf
      rw [(hφ g hg).max] at hm
      rw [(hφ g hg).empty hm]; exact h.emptyS g hg hm
    · rw [List.pairwise_map]
      exact h.order.imp_of_mem (fun ha hb hab => (hφ _ ha).before (hφ _ hb) hab)
    · rw [hmin]; exact h.lastF
    · rw [hmin]; exact h.lastS
    · intro hne f hf hlt hb
      obtain ⟨g, hg, rfl⟩ := List.mem_map.1 hf
      rw [(hφ g hg).max] at hb
      rw [(hφ g hg).num, hmin] at hlt
      rw [(hφ g hg).synced]
      exact h.syncedLe hne g hg hlt hb
    · intro f fs hf r hr; cases hr
    · rw [h.pend, List.flatMap_map]
      have : ∀ L : List (LogFile K), (∀ f ∈ L, (φ f).pending = f.pending) →
          L.flatMap LogFile.pending = L.flatMap (fun f => (φ f).pending) := by
        intro L hL
        induction L with
        | nil => rfl
        | cons f L ih =>
          rw [List.flatMap_cons, List.flatMap_cons, ih (fun g hg => hL g (List.mem_cons_of_mem _ hg)),
            hL f List.mem_cons_self]
      exact this _ hpend
    · intro fs f hf
      simp only [] at hf
      obtain ⟨gs, g, hg⟩ := h.split_last
      rw [hg, List.map_append] at hf
      have h1 := List.append_inj' hf (by simp)
      have h2 : φ g = f := by simpa using h1.2
      subst h2
      have h3 := hφ g (by rw [hg]; simp)
      rw [h3.max]
      have := h.top gs g hg
      refine ⟨fun hm => ⟨(this.1 hm).1, ?_⟩, this.2⟩
      have h4 := (this.1 hm).2
      rw [h4] at h1; exact h1.1.symm
  refine ⟨⟨hL, ⟨?_, ?_, ?_, ?_, ?_⟩, ⟨?_, ?_, ?_, ?_⟩⟩, ?_⟩
  any_goals
    intro f hf
    obtain ⟨g, hg, rfl⟩ := List.mem_map.1 hf
    have hx := hφ g hg
  · exact hx.store (hr.store.ok g hg)
  · show (φ g).num < ({ l with files := l.files.map φ } : LogMgr K).syncFrom → _
    have e : ({ l with files := l.files.map φ } : LogMgr K).syncFrom = l.syncFrom := by
      unfold LogMgr.syncFrom; rw [hmin]
    rw [e, hx.num, hx.synced, hx.max]; exact hr.store.lo g hg
  · have e : ({ l with files := l.files.map φ } : LogMgr K).syncFrom = l.syncFrom := by
      unfold LogMgr.syncFrom; rw [hmin]
    rw [e, hx.num, hx.synced]; exact hr.store.hi g hg
  · rw [hmin, hx.num, hx.synced, hx.disk]; exact hr.store.disk g hg
  · have e : ({ l with files := l.files.map φ } : LogMgr K).syncFrom = l.syncFrom := by
      unfold LogMgr.syncFrom; rw [hmin]
    rw [e, hx.num, hx.imm]; exact hr.store.wr g hg
  · rw [hx.flushed]; exact hr.low.fl g hg
  · rw [hx.max, hx.bySeq, hx.min]; exact hr.low.mn g hg
  · rw [hx.max, hx.bySeq]; exact hr.low.tp g hg
  · rw [hx.synced, hx.bySeq]; exact hr.low.sy g hg
  · obtain ⟨fs, f, hf⟩ := h.split_last
    have h1 : ({ l with files := l.files.map φ } : LogMgr K).files = fs.map φ ++ [φ f] := by simp [hf]
    rw [h.getMax_eq hf, hL.getMax_eq h1, (hφ f (by rw [hf]; simp)).max]

/-- On disk is everything up to the synced number. -/
theorem LRInv.disk_eq {l : LogMgr K} {B} (h : LRInv l B) {f : LogFile K} (hf : f ∈ l.files)
    (hs : f.mem.syncedSeqNum ≠ NIL) : dataOf f.disk = cutAt f.mem.syncedSeqNum f.mem.bySeq := by
  have := (h.store.ok f hf).eq hs
  rw [stored_all (h.low.fl f hf), pending_nil (h.low.fl f hf)] at this
  exact this

/-- A completely synced file that is loaded again holds the same records. -/
theorem LRInv.reload_same {l : LogMgr K} {B} (h : LRInv l B) {f : LogFile K} (hf : f ∈ l.files)
    (hm : f.mem.maxSeqNum ≠ NIL) (hs : f.mem.syncedSeqNum = f.mem.maxSeqNum) : SameRecs f f.reload := by
  have hsn : f.mem.syncedSeqNum ≠ NIL := by rw [hs]; exact hm
  have hw := h.log.wf f hf
  have hd : dataOf f.disk = f.mem.bySeq := by
    rw [h.disk_eq hf hsn]
    exact cutAt_all (fun r hr => by rw [hs]; exact (hw.bound r hr).2.1)
  have hi : Increasing (dataOf f.disk) := by rw [hd]; exact hw.sorted
  have hl := load_ok f.disk f.mem.minSeqNum f.mem.flushedSeqNum f.mem.syncedSeqNum hi
  have hfl := h.low.fl f hf
  rw [hfl] at hl
  obtain ⟨t, ht, et⟩ := h.low.tp f hf hm
  have hne : dataOf f.disk ≠ [] := by rw [hd]; exact List.ne_nil_of_mem ht
  obtain ⟨w, wm, ws, ⟨x, hx, ex⟩, wle⟩ := load_wf hl hi hne (fun r hr => by
    rw [hd] at hr
    have := hw.bound r hr
    exact ⟨this.1, this.2.2⟩)
  rw [hd] at hx wle
  have hmax : (MemTable.load f.disk f.mem.minSeqNum NIL f.mem.syncedSeqNum).maxSeqNum = f.mem.maxSeqNum := by
    have h1 := (hw.bound x hx).2.1
    have h2 := wle t ht
    omega
  obtain ⟨m1, m2, m3, m4, m5, m6, m7⟩ := maybeClose_same
    ({ f with fOpen := true, mem := MemTable.load f.disk f.mem.minSeqNum f.mem.flushedSeqNum f.mem.syncedSeqNum } : LogFile K)
  simp only [hfl] at m1 m2 m3 m4 m5 m6 m7
  have e : f.reload = ({ f with fOpen := true, mem := MemTable.load f.disk f.mem.minSeqNum NIL f.mem.syncedSeqNum } : LogFile K).maybeClose := by
    unfold LogFile.reload; rw [hfl]
  rw [e]
  have hso := h.store.ok f hf
  refine ⟨m1, m2, by rw [m3, hl.bySeq, hd], by rw [m3, hl.min], by rw [m3, hmax], by rw [m3, hl.flushed, hfl],
    by rw [m3, ws, hmax, hs], by rw [m3]; exact w, fun hn => absurd hn hm, m4, m6, fun _ => ?_⟩
  refine ⟨by rw [m4]; exact hi, by rw [m4, m3, hl.bySeq]; exact fun r hr => hr, ?_, ?_, ?_, m5.trans hso.torn,
    m7 hso.integ, ?_⟩
  · intro _; rw [m4, m3, ws, hd]; exact wle
  · intro hn; rw [m3, ws] at hn; exact absurd hn wm
  · intro _
    have e1 : ({ f with fOpen := true, mem := MemTable.load f.disk f.mem.minSeqNum NIL f.mem.syncedSeqNum } : LogFile K).maybeClose.mem.flushedSeqNum = NIL := by
      rw [m3]; exact hl.flushed
    rw [stored_all e1, pending_nil e1, m4, m3, hl.bySeq, ws, hd]
    symm; rw [List.filter_eq_self]
    intro r hr; simpa using wle r hr
  · intro _; rw [m3, hl.min]; exact hso.min hm

theorem LRInv.evict {l : LogMgr K} {B} (h : LRInv l B) (num : Nat) :
    LRInv (l.evict num) B ∧ (l.evict num).getMaxSeqNum = l.getMaxSeqNum ∧ (l.evict num).cfg = l.cfg := by
  unfold LogMgr.evict
  cases hf : l.file? num with
  | none => exact ⟨h, rfl, rfl⟩
  | some f =>
    simp only []
    by_cases hc : l.lastSynced ≠ NIL ∧ num ≠ l.minNum ∧ num < l.lastSynced ∧ f.immutable = true
    · rw [if_pos hc]
      obtain ⟨c1, c2, c3, c4⟩ := hc
      have hff : f ∈ l.files := List.mem_of_find?_eq_some hf
      have hfn : f.num = num := by
        have := List.find?_some hf; simpa using this
      have hsf : l.syncFrom = l.lastSynced := by unfold LogMgr.syncFrom; rw [if_pos c1]
      have hlt : f.num < l.maxNum := by
        rcases h.log.lastS with h1 | h1
        · exact absurd h1 c1
        · omega
      have hs := h.store.lo f hff (by rw [hsf, hfn]; exact c3)
      have hx := h.reload_same hff (h.log.ne_last hff hlt) hs
      have := h.mapSame (fun g => if g.num == f.reload.num then f.reload else g) (by
        intro g hg
        by_cases e : g.num = f.reload.num
        · rw [if_pos (by simpa using e)]
          rw [hx.num] at e
          rw [h.log.same_num hg hff e]; exact hx
        · rw [if_neg (by simpa using e)]; exact SameRecs.rfl' (h.log.wf g hg))
      exact ⟨this.1, this.2, rfl⟩
    · rw [if_neg hc]; exact ⟨h, rfl, rfl⟩

/-! ### opening it again -/

theorem LRInv.max_eq {l : LogMgr K} {B} (h : LRInv l B) :
    (B = [] → l.getMaxSeqNum = none) ∧ (B ≠ [] → l.getMaxSeqNum = (B.getLast?).map (·.seq)) := by
  obtain ⟨fs, g, hg⟩ := h.log.split_last
  have hgf : g ∈ l.files := by rw [hg]; simp
  rw [h.log.getMax_eq hg]
  by_cases hm : g.mem.maxSeqNum = NIL
  · have := ((h.log.top fs g hg).1 hm).1
    simp only [List.nil_append] at this
    rw [if_neg (by simp [hm])]
    exact ⟨fun _ => rfl, fun hn => absurd this hn⟩
  · rw [if_pos hm]
    obtain ⟨r, hr, er⟩ := h.low.tp g hgf hm
    have hrB : r ∈ B := by
      rw [h.log.pend]
      exact List.mem_flatMap.2 ⟨g, hgf, by rw [pending_nil (h.low.fl g hgf)]; exact hr⟩
    refine ⟨fun hn => absurd hrB (by simp [hn]), fun _ => ?_⟩
    cases hl : B.getLast? with
    | none => rw [List.getLast?_eq_none_iff] at hl; rw [hl] at hrB; cases hrB
    | some x =>
      obtain ⟨L, hL⟩ := List.getLast?_eq_some_iff.1 hl
      have a1 := (h.log.top fs g hg).2 hm x (by rw [hL]; simp)
      have a2 : r.seq ≤ x.seq := by
        have hi : Increasing B := h.log.inc
        rw [hL] at hi hrB
        rcases List.mem_append.1 hrB with h5 | h5
        · exact Nat.le_of_lt ((List.pairwise_append.1 hi).2.2 r h5 x (by simp))
        · simp only [List.mem_singleton] at h5; rw [h5]; exact Nat.le_refl _
      simp only [Option.map_some]
      congr 1; omega

/-- What must be on disk. -/
theorem LRInv.durable {l : LogMgr K} {B} (h : LRInv l B) {disk : List (DFile K)} {q : Nat}
    (hm : ∀ f ∈ l.files, f.mem.maxSeqNum ≠ NIL)
    (hd : ∀ f ∈ l.files, ∃ items, disk.find? (fun d => d.num == f.num) = some ⟨f.num, items, .clean⟩ ∧
      dataOf items = cutAt q f.mem.bySeq ∧ dataOf items ≠ []) : l.Durable l.persist disk q := by
  refine ⟨?_, rfl, rfl, ?_, fun f hf => (h.store.ok f hf).min (hm f hf), fun f hf => ?_⟩
  · simp only [LogMgr.persist, List.map_map]; rfl
  · rcases h.log.lastS with h1 | h1
    · exact Or.inl h1
    · exact Or.inr h1.2
  · obtain ⟨items, h1, h2, h3⟩ := hd f hf
    exact ⟨items, h1, h2, h3, fun hn => absurd (h.low.fl f hf) hn⟩

/-- The log section that is opened again. -/
theorem LRInv.reloaded {l : LogMgr K} {B} (h : LRInv l B) {disk : List (DFile K)} {q : Nat}
    (hD : l.Durable l.persist disk q) {cfg : Cfg} (h1 : cfg.readOnly = false) (h2 : cfg.allowOverwrite = false)
    (h3 : 0 < cfg.maxEntries) (trunc : Bool) (ht : trunc = true → okEntries NIL l.persist.entries) :
    LogMgr.recoverOnly cfg trunc l.persist disk = l.reloaded cfg disk ∧ LRInv (l.reloaded cfg disk) (cutAt q B) := by
  refine ⟨by rw [recoverOnly_eq cfg trunc _ disk ht]; exact hD.recover h.log cfg, hD.inv h.log h1 h2 h3, hD.store h.log cfg, ?_⟩
  have hR := fun f hf => hD.reloaded h.log (f := f) hf
  refine ⟨?_, ?_, ?_, ?_⟩ <;> intro f' hf' <;> obtain ⟨f, hf, rfl⟩ := List.mem_map.1 hf' <;> have hr := hR f hf
  · rw [hr.flushed]; exact h.low.fl f hf
  · intro _
    have hb := hr.bounds (h.log.wf f hf)
    obtain ⟨r, hr', er⟩ := h.low.mn f hf hb.2.2.2.2
    exact ⟨r, by rw [hr.bySeq]; exact mem_cutAt.2 ⟨hr', by omega⟩, by rw [hr.min]; exact er⟩
  · intro _; exact hr.last
  · intro _; rw [hr.synced]; exact hr.last

theorem head_of_min {L : List (Rec K)} (hi : Increasing L) {m : Nat} (hb : ∀ r ∈ L, m ≤ r.seq) (h : ∃ r ∈ L, r.seq = m) :
    ∃ r R, L = r :: R ∧ r.seq = m := by
  obtain ⟨r, hr, e⟩ := h
  cases L with
  | nil => cases hr
  | cons a R =>
    refine ⟨a, R, rfl, ?_⟩
    rcases List.mem_cons.1 hr with rfl | hr
    · exact e
    · have := (List.pairwise_cons.1 hi).1 r hr
      have := hb a (by simp)
      omega

theorem last_of_max {L : List (Rec K)} (hi : Increasing L) {m : Nat} (hb : ∀ r ∈ L, r.seq ≤ m) (h : ∃ r ∈ L, r.seq = m) :
    ∃ R r, L = R ++ [r] ∧ r.seq = m := by
  obtain ⟨r, hr, e⟩ := h
  obtain ⟨R, a, rfl⟩ := (List.eq_nil_or_concat L).resolve_left (fun e => by rw [e] at hr; cases hr)
  rw [List.concat_eq_append] at *
  refine ⟨R, a, rfl, ?_⟩
  rcases List.mem_append.1 hr with h1 | h1
  · have := (List.pairwise_append.1 hi).2.2 r h1 a (by simp)
    have := hb a (by simp)
    omega
  · rw [List.mem_singleton.1 h1] at e; exact e

/-- The checks are passed if the numbers are consecutive and every file but the newest is completely
    synced, the newest one at least in part. -/
theorem LRInv.passes {l : LogMgr K} {B} (h : LRInv l B) (hls : l.lastSynced = l.maxNum)
    (hs : ∀ f ∈ l.files, f.mem.syncedSeqNum ≠ NIL) (hc : Consecutive B) : okEntries NIL l.persist.entries := by
  have hsf : l.syncFrom = l.maxNum := by
    unfold LogMgr.syncFrom; rw [hls, if_pos (Nat.ne_of_lt h.log.numN)]
  have hm : ∀ f ∈ l.files, f.mem.maxSeqNum ≠ NIL := by
    intro f hf e
    have := ((h.log.wf f hf).nil e).1
    obtain ⟨r, hr, -⟩ := h.low.sy f hf (hs f hf)
    rw [this] at hr; cases hr
  have hB : B = l.files.flatMap (·.mem.bySeq) := by
    rw [h.log.pend]
    have : ∀ L : List (LogFile K), (∀ f ∈ L, f.mem.flushedSeqNum = NIL) → L.flatMap LogFile.pending = L.flatMap (·.mem.bySeq) := by
      intro L hL
      induction L with
      | nil => rfl
      | cons f L ih => rw [List.flatMap_cons, List.flatMap_cons, ih (fun g hg => hL g (by simp [hg])), pending_nil (hL f (by simp))]
    exact this _ h.low.fl
  refine okEntries_files l.files NIL ?_ ?_ ?_ (Or.inl rfl) (by rw [← hB]; exact hc)
  · intro f hf
    refine ⟨(h.store.ok f hf).min (hm f hf), hs f hf, ?_⟩
    obtain ⟨r, hr, e⟩ := h.low.sy f hf (hs f hf)
    rw [← e]; exact ((h.log.wf f hf).bound r hr).1
  · intro f hf
    exact head_of_min (h.log.wf f hf).sorted (fun r hr => ((h.log.wf f hf).bound r hr).1) (h.low.mn f hf (hm f hf))
  · intro P f g R e
    have hf : f ∈ l.files := by rw [e]; simp
    have hg : g ∈ l.files := by rw [e]; simp
    have ho := h.log.order
    rw [e] at ho
    have hlt := ((List.pairwise_cons.1 (List.pairwise_append.1 ho).2.1).1 g (by simp)).num
    have := (h.log.num_range hg).2
    have es := h.store.lo f hf (by rw [hsf]; omega)
    rw [es]
    exact last_of_max (h.log.wf f hf).sorted (fun r hr => ((h.log.wf f hf).bound r hr).2.1) (h.low.tp f hf (hm f hf))

/-- What a closed or crashed database leaves: all records up to some number, among them the synced
    ones. -/
theorem LRInv.left {l : LogMgr K} {B} (h : LRInv l B) (hls : l.lastSynced = l.maxNum)
    (hs : ∀ f ∈ l.files, f.mem.syncedSeqNum ≠ NIL) {disk : List (DFile K)}
    (hf : ∀ f ∈ l.files, ∃ items, disk.find? (fun d => d.num == f.num) = some ⟨f.num, items, .clean⟩ ∧
      f.disk <+: items ∧ items <+: (l.syncOne f).disk) :
    ∃ q, l.Durable l.persist disk q ∧ (∃ r ∈ B, r.seq = q) ∧ (∀ f ∈ l.files, f.mem.syncedSeqNum ≤ q) := by
  have hN := h.log.numN
  have hsf : l.syncFrom = l.maxNum := by
    unfold LogMgr.syncFrom; rw [hls, if_pos (Nat.ne_of_lt hN)]
  have hm : ∀ f ∈ l.files, f.mem.maxSeqNum ≠ NIL := by
    intro f hf e
    have := ((h.log.wf f hf).nil e).1
    obtain ⟨r, hr, -⟩ := h.low.sy f hf (hs f hf)
    rw [this] at hr; cases hr
  obtain ⟨fs, g, hg⟩ := h.log.split_last
  have hgf : g ∈ l.files := by rw [hg]; simp
  have hgn := h.log.last_num hg
  have hwg := h.log.wf g hgf
  obtain ⟨gi, g1, g2, g3⟩ := hf g hgf
  -- the newest file
  have hall : dataOf (l.syncOne g).disk = g.mem.bySeq := by
    obtain ⟨-, -, s3, -, -, -⟩ := h.store.syncOne h.log hgf
    have hr := h.log.syncOne_rel hgf
    rw [← stored_all (by rw [hr.flushed]; exact h.low.fl g hgf), s3, pending_nil (h.low.fl g hgf)]
  have hpre : dataOf gi <+: g.mem.bySeq := by
    rw [← hall]
    obtain ⟨t, ht⟩ := g3
    exact ⟨dataOf t, by rw [← dataOf_append, ht]⟩
  obtain ⟨x, hx, ex⟩ := h.low.sy g hgf (hs g hgf)
  have hxd : x ∈ dataOf gi := by
    obtain ⟨t, ht⟩ := g2
    rw [← ht, dataOf_append]
    apply List.mem_append_left
    rw [h.disk_eq hgf (hs g hgf)]
    exact mem_cutAt.2 ⟨hx, by omega⟩
  obtain ⟨L, y, hy⟩ := (List.eq_nil_or_concat (dataOf gi)).resolve_left (fun e => by rw [e] at hxd; cases hxd)
  rw [List.concat_eq_append] at hy
  obtain ⟨t, ht⟩ := hpre
  have hyg : y ∈ g.mem.bySeq := by rw [← ht, hy]; simp
  have hinc := hwg.sorted
  have hcut : dataOf gi = cutAt y.seq g.mem.bySeq := by
    rw [← ht] at hinc ⊢
    rw [cutAt_append, cutAt_all, show cutAt y.seq t = [] from ?_, List.append_nil]
    · unfold cutAt
      rw [List.filter_eq_nil_iff]
      intro r hr
      have := (List.pairwise_append.1 hinc).2.2 y (by rw [hy]; simp) r hr
      simp; omega
    · intro r hr
      rw [hy] at hinc hr
      rcases List.mem_append.1 hr with h1 | h1
      · exact Nat.le_of_lt ((List.pairwise_append.1 (List.pairwise_append.1 hinc).1).2.2 r h1 y (by simp))
      · rw [List.mem_singleton.1 h1]; exact Nat.le_refl _
  have hxy : x.seq ≤ y.seq := by
    rw [hcut] at hxd; exact (mem_cutAt.1 hxd).2
  have hold : ∀ f ∈ l.files, f = g ∨ (f.num < l.maxNum ∧ f.mem.maxSeqNum < y.seq) := by
    intro f hf
    by_cases e : f.num = g.num
    · exact Or.inl (h.log.same_num hf hgf e)
    · right
      have := (h.log.num_range hf).2
      refine ⟨by omega, ?_⟩
      have ho := h.log.order
      rw [hg] at ho hf
      rcases List.mem_append.1 hf with h1 | h1
      · have hb := (List.pairwise_append.1 ho).2.2 f h1 g (by simp)
        exact hb.recs hb.ne y hyg
      · rw [List.mem_singleton.1 h1] at e; exact absurd rfl e
  refine ⟨y.seq, h.durable hm ?_, ?_, ?_⟩
  · intro f hf'
    rcases hold f hf' with rfl | ⟨h1, h2⟩
    · exact ⟨gi, g1, hcut, by rw [hy]; simp⟩
    · obtain ⟨items, i1, i2, i3⟩ := hf f hf'
      have e : l.syncOne f = f := by
        unfold LogMgr.syncOne; rw [if_neg (by rw [hsf]; omega)]
      rw [e] at i3
      have hi : items = f.disk := List.IsPrefix.eq_of_length_le i3 i2.length_le
      have hsm := h.store.lo f hf' (by rw [hsf]; exact h1)
      have hw := h.log.wf f hf'
      have hd : dataOf items = f.mem.bySeq := by
        rw [hi, h.disk_eq hf' (hs f hf')]
        exact cutAt_all (fun r hr => by rw [hsm]; exact (hw.bound r hr).2.1)
      refine ⟨items, i1, ?_, ?_⟩
      · rw [hd, cutAt_all]; intro r hr; have := (hw.bound r hr).2.1; omega
      · obtain ⟨r, hr, -⟩ := h.low.tp f hf' (hm f hf')
        rw [hd]; exact List.ne_nil_of_mem hr
  · refine ⟨y, ?_, rfl⟩
    rw [h.log.pend]
    exact List.mem_flatMap.2 ⟨g, hgf, by rw [pending_nil (h.low.fl g hgf)]; exact hyg⟩
  · intro f hf'
    rcases hold f hf' with rfl | ⟨h1, h2⟩
    · omega
    · rw [h.store.lo f hf' (by rw [hsf]; exact h1)]; omega

/-! ### a log file added since the last sync -/

theorem invalid_mono {e : PEntry} {last : Bool} {ls : Nat} (h : e.invalid last ls = false) : e.invalid false ls = false := by
  unfold PEntry.invalid at *
  rw [Bool.or_eq_false_iff] at h
  rw [h.1]; rfl

/-- A list of files that pass the checks and can be read, followed by others. -/
theorem loadOnly_append (disk : List (DFile K)) (E : List PEntry) (x : PEntry) (X : List PEntry) (s : LoadSt K)
    (h : okEntries s.lastSeq E) (hd : ∀ e ∈ E, ∀ a b c, LogFile.load disk e.num a b c ≠ none) :
    LogMgr.loadOnly true disk (E ++ x :: X) s = LogMgr.loadOnly true disk (x :: X) (LogMgr.loadOnly true disk E s) := by
  induction E generalizing s with
  | nil => rfl
  | cons e E ih =>
    have h1 := invalid_mono h.1
    have hne : (E ++ x :: X).isEmpty = false := by cases E <;> rfl
    have h2 := h.2
    have hl := hd e (by simp)
    have e1 : ∀ Y : List PEntry, e.invalid Y.isEmpty s.lastSeq = false →
        LogMgr.loadOnly true disk (e :: Y) s =
        if valid s.lastFlushed && decide (e.num < s.lastFlushed) then
          LogMgr.loadOnly true disk Y { s with lastSeq := if valid e.synced then e.synced else s.lastSeq }
        else
          match LogFile.load disk e.num (if !valid e.min && valid (if valid e.synced then e.synced else s.lastSeq) then
              (if valid e.synced then e.synced else s.lastSeq) + 1 else e.min) e.flushed
              (if !valid e.synced && valid (if valid e.synced then e.synced else s.lastSeq) then
                (if valid e.synced then e.synced else s.lastSeq) else e.synced) with
          | some f => LogMgr.loadOnly true disk Y
              { s with
                files := s.files ++ [f]
                lastSeq := if valid e.synced then e.synced else s.lastSeq
                firstRead := true
                lastSynced := if !valid s.lastSynced || decide (s.lastSynced < e.num) then e.num else s.lastSynced }
          | none => s := by
      intro Y hY
      conv => lhs; unfold LogMgr.loadOnly
      rw [if_neg (by simp [hY])]
      simp only []
      split
      · rfl
      · have := hl (if !valid e.min && valid (if valid e.synced then e.synced else s.lastSeq) then
              (if valid e.synced then e.synced else s.lastSeq) + 1 else e.min) e.flushed
              (if !valid e.synced && valid (if valid e.synced then e.synced else s.lastSeq) then
                (if valid e.synced then e.synced else s.lastSeq) else e.synced)
        generalize LogFile.load disk e.num _ _ _ = o at this
        cases o with
        | none => exact absurd rfl this
        | some f => rfl
    rw [List.cons_append, e1 (E ++ x :: X) (by rw [hne]; exact h1), e1 E h.1]
    split
    · exact ih _ h2 (fun e' he' => hd e' (by simp [he']))
    · have := hl (if !valid e.min && valid (if valid e.synced then e.synced else s.lastSeq) then
              (if valid e.synced then e.synced else s.lastSeq) + 1 else e.min) e.flushed
              (if !valid e.synced && valid (if valid e.synced then e.synced else s.lastSeq) then
                (if valid e.synced then e.synced else s.lastSeq) else e.synced)
      generalize LogFile.load disk e.num _ _ _ = o at this
      cases o with
      | none => exact absurd rfl this
      | some f => exact ih _ h2 (fun e' he' => hd e' (by simp [he']))

theorem LRInv.withoutNewest {l : LogMgr K} {B} (h : LRInv l B) (hls : l.lastSynced + 1 = l.maxNum) :
    LRInv l.withoutNewest (l.withoutNewest.files.flatMap LogFile.pending) ∧
    (∃ Y, B = l.withoutNewest.files.flatMap LogFile.pending ++ Y) ∧ (∀ f ∈ l.withoutNewest.files, f ∈ l.files ∧ f.num < l.maxNum) ∧
    l.withoutNewest.lastSynced = l.withoutNewest.maxNum ∧
    (∀ f ∈ l.withoutNewest.files, (l.withoutNewest.syncOne f).disk = (l.syncOne f).disk) := by
  have hL := h.log
  obtain ⟨fs, g, hg⟩ := hL.split_last
  have hN := hL.numN
  have hlN : l.lastSynced ≠ NIL := by omega
  have hmin : l.minNum ≤ l.lastSynced := by
    rcases hL.lastS with h1 | h1
    · exact absurd h1 hlN
    · exact h1.1
  have hlen := hL.minNum_eq
  have hfs : fs ≠ [] := by
    intro e
    rw [hg, e] at hlen
    simp at hlen
    omega
  have e0 : l.withoutNewest = { l with files := fs, maxNum := l.maxNum - 1 } := by
    unfold LogMgr.withoutNewest; rw [hg, List.dropLast_concat]
  have hmin' : ({ l with files := fs, maxNum := l.maxNum - 1 } : LogMgr K).minNum = l.minNum := by
    unfold LogMgr.minNum
    rw [hg]
    cases fs with
    | nil => exact absurd rfl hfs
    | cons f fs => rfl
  have hsf : l.syncFrom = l.lastSynced := by unfold LogMgr.syncFrom; rw [if_pos hlN]
  have hsf' : ({ l with files := fs, maxNum := l.maxNum - 1 } : LogMgr K).syncFrom = l.lastSynced := by
    unfold LogMgr.syncFrom; rw [if_pos hlN]
  have hgn := hL.last_num hg
  have ho := hL.order
  rw [hg] at ho
  have ho1 := List.pairwise_append.1 ho
  have hmem : ∀ f ∈ fs, f ∈ l.files ∧ f.num < l.maxNum := fun f hf =>
    ⟨by rw [hg]; simp [hf], by have := (ho1.2.2 f hf g (by simp)).num; omega⟩
  have hB : B = fs.flatMap LogFile.pending ++ g.pending := by
    rw [hL.pend, hg]; simp [List.flatMap_append]
  rw [e0]
  refine ⟨⟨⟨hL.rw, hL.noOv, hL.bar, hfs, ?_, by show l.maxNum - 1 < NIL; omega, fun f hf => hL.wf f (hmem f hf).1,
    fun f hf => hL.own f (hmem f hf).1, hL.entries, fun f hf => hL.emptyW f (hmem f hf).1, fun f hf => hL.emptyS f (hmem f hf).1,
    ho1.1, by rw [hmin']; exact hL.lastF, ?_, ?_, fun _ _ _ r hr => (by cases hr), rfl, ?_, ?_⟩, ⟨fun f hf => h.store.ok f (hmem f hf).1,
    ?_, ?_, ?_, ?_⟩, ⟨fun f hf => h.low.fl f (hmem f hf).1, fun f hf => h.low.mn f (hmem f hf).1, fun f hf => h.low.tp f (hmem f hf).1,
    fun f hf => h.low.sy f (hmem f hf).1⟩⟩, ⟨g.pending, hB⟩, hmem, by show l.lastSynced = l.maxNum - 1; omega, ?_⟩
  · obtain ⟨a, n1, n2⟩ := hL.nums
    rw [hg] at n1 n2
    refine ⟨a, ?_, ?_⟩
    · have := range'_prefix (X := fs.map (·.num)) (Y := [g.num]) (a := a) (n := (fs ++ [g]).length) (by rw [← n1]; simp)
      rw [List.length_map] at this
      exact this
    · show l.maxNum - 1 + 1 = a + fs.length
      simp only [List.length_append, List.length_singleton] at n2
      omega
  · right; rw [hmin']; show _ ∧ l.lastSynced ≤ l.maxNum - 1; exact ⟨hmin, by omega⟩
  · intro _ f hf hlt hm
    rw [hmin'] at hlt
    exact hL.syncedLe hlN f (hmem f hf).1 hlt hm
  · have : Increasing B := hL.inc
    rw [hB] at this
    exact (List.pairwise_append.1 this).1
  · intro fs' f' hf'
    have hff : f' ∈ fs := by
      have e : fs = fs' ++ [f'] := hf'
      rw [e]; simp
    have hne := (ho1.2.2 f' hff g (by simp)).ne
    refine ⟨fun e => absurd e hne, fun _ r hr => ?_⟩
    simp only [List.nil_append] at hr
    obtain ⟨x, hx, hrx⟩ := List.mem_flatMap.1 hr
    have hb := ((hL.wf x (hmem x hx).1).bound r (pending_sub hrx)).2.1
    have e : fs = fs' ++ [f'] := hf'
    rw [e] at hx
    rcases List.mem_append.1 hx with h1 | h1
    · have ho2 := ho1.1
      rw [e] at ho2
      have hbf := (List.pairwise_append.1 ho2).2.2 x h1 f' (by simp)
      have := (hbf.max hbf.ne).2
      omega
    · rw [List.mem_singleton.1 h1] at hb; exact hb
  · intro f hf; rw [hsf', ← hsf]; exact h.store.lo f (hmem f hf).1
  · intro f hf; rw [hsf', ← hsf]; exact h.store.hi f (hmem f hf).1
  · intro f hf; rw [hmin']; exact h.store.disk f (hmem f hf).1
  · intro f hf _; right; rw [hsf']; show l.lastSynced = l.maxNum - 1; omega
  · intro f hf
    have hlt := (hmem f hf).2
    unfold LogMgr.syncOne
    rw [hsf', hsf]
    by_cases hc : l.lastSynced ≤ f.num
    · rw [if_pos ⟨hc, by show f.num ≤ l.maxNum - 1; omega⟩, if_pos ⟨hc, by omega⟩]
      have key : ∀ (x : LogFile K) (a : Nat), (if x.num < a then { x with immutable := true } else x).disk = x.disk := by
        intro x a; split <;> rfl
      unfold LogMgr.syncFile
      simp only [key]
    · rw [if_neg (by intro hh; exact hc hh.1), if_neg (by intro hh; exact hc hh.1)]

/-- The manifest stored when a log file was added opens like the one before. -/
theorem LRInv.whenAdded {l : LogMgr K} {B} (h : LRInv l B) (hls : l.lastSynced + 1 = l.maxNum) {disk : List (DFile K)} {q : Nat}
    (hD : l.withoutNewest.Durable l.withoutNewest.persist disk q) (hok : okEntries NIL l.withoutNewest.persist.entries) (cfg : Cfg) :
    LogMgr.recoverOnly cfg true l.whenAdded disk = l.withoutNewest.reloaded cfg disk := by
  obtain ⟨h0, -, -, h3, -⟩ := h.withoutNewest hls
  have hL := h0.log
  have hmx : l.withoutNewest.maxNum = l.maxNum - 1 := rfl
  obtain ⟨fs, g, hg⟩ := hL.split_last
  have hl : ∀ e ∈ l.withoutNewest.persist.entries, ∀ a b c, LogFile.load disk e.num a b c ≠ none := by
    intro e he a b c
    obtain ⟨f, hf, rfl⟩ := List.mem_map.1 he
    obtain ⟨items, d1, -⟩ := hD.disk f hf
    unfold LogFile.load
    simp only [d1]
    simp
  obtain ⟨x, hx⟩ := loadLoop_all disk l.withoutNewest.files l.withoutNewest.persist.entries
    { files := [], maxNum := l.maxNum, lastFlushed := l.withoutNewest.lastFlushed, lastSynced := l.withoutNewest.lastSynced, lastSeq := NIL, firstRead := false }
    hD.ent hD.min (fun f hf => by obtain ⟨i, h1, h3, h2, -⟩ := hD.disk f hf; exact ⟨i, h1, h2, by rw [h3]; exact inc_cutAt q (hL.wf f hf).sorted⟩)
    (by
      simp only []
      rcases hL.lastF with h1 | h1
      · exact Or.inl h1
      · right; rw [h1]; exact fun f hf => (hL.num_range hf).1)
    l.withoutNewest.maxNum (by right; rw [h3]; exact Nat.le_refl _) (fun f hf => (hL.num_range hf).2)
    (by
      intro f hf
      rw [hg] at hf
      simp only [List.getLast?_append, List.getLast?_singleton, Option.some_or] at hf
      cases hf
      exact hL.last_num hg) hL.ne
  rw [← loadOnly_eq true disk _ _ (fun _ => hok)] at hx
  unfold LogMgr.recoverOnly LogMgr.whenAdded
  simp only []
  rw [loadOnly_append disk _ _ [] _ hok hl]
  have ep : l.withoutNewest.persist.lastFlushed = l.withoutNewest.lastFlushed := rfl
  have es : l.withoutNewest.persist.lastSynced = l.withoutNewest.lastSynced := rfl
  rw [ep, es, hx]
  have hinv : ({ num := l.maxNum, min := NIL, flushed := NIL, synced := NIL } : PEntry).invalid true x = true := by
    unfold PEntry.invalid
    simp [valid]
  have hstep : ∀ S : LoadSt K, S.lastSeq = x →
      LogMgr.loadOnly true disk [{ num := l.maxNum, min := NIL, flushed := NIL, synced := NIL }] S =
        { S with maxNum := l.maxNum - 1, lastSynced := l.maxNum - 1 } := by
    intro S hS
    unfold LogMgr.loadOnly
    rw [hS, if_pos (by simpa using hinv), if_pos (by show l.maxNum ≠ 0; omega)]
  rw [hstep _ rfl]
  simp only [List.nil_append]
  rw [if_neg (by
    intro e
    rw [List.map_eq_nil_iff] at e
    exact hL.ne e)]
  rfl

/-- `whenAdded` is the manifest stored when the newest log file was added. -/
theorem PutStep.whenAdded {l l' : LogMgr K} {A B} (h : LogInv l A B) (hp : PutStep l l') :
    (l'.maxNum = l.maxNum ∧ l'.whenAdded = l.whenAdded) ∨ (l'.maxNum = l.maxNum + 1 ∧ l'.whenAdded = l.rotated) := by
  cases hp with
  | @same fs f m' r q hf hput h0 hN hgt =>
    left
    refine ⟨rfl, ?_⟩
    unfold LogMgr.whenAdded LogMgr.withoutNewest
    simp only [hf, List.dropLast_concat]
  | @new fs f m' r q hf hm hput h0 hN =>
    right
    refine ⟨rfl, ?_⟩
    have hfi : l.file? l.maxNum = some f := by
      rw [← h.last_num hf]; exact h.file?_mem (by rw [hf]; simp)
    unfold LogMgr.whenAdded LogMgr.withoutNewest LogMgr.rotated
    rw [hfi]
    simp only [List.dropLast_concat, LogMgr.addNewLogFile, LogMgr.persist, List.map_append, hf, Nat.add_sub_cancel]
    rfl

end Jungle
