/-
  What a rollback leaves of the log section.
-/
import Verif.Log.Rollback
import Verif.Log.RecoverLemmas

namespace Jungle
open Spec
set_option linter.unusedSectionVars false

variable {K : Type} [LinearOrder K]

/-- Cutting a file keeps exactly the records that are not above `n`. -/
theorem cutAfter_spec (n : Nat) (items : List (DItem K)) (hinc : Increasing (dataOf items)) :
    match cutAfter n items with
    | none => (dataOf items).filter (fun r => decide (r.seq ≤ n)) = []
    | some d => d <+: items ∧ dataOf d = (dataOf items).filter (fun r => decide (r.seq ≤ n)) ∧ dataOf d ≠ [] := by
  induction items with
  | nil => rfl
  | cons i is ih =>
    have hinc' : Increasing (dataOf is) := by
      cases i with
      | data r => exact (List.pairwise_cons.1 hinc).2
      | flushMarker s => exact hinc
      | checkpoint c => exact hinc
    have ih := ih hinc'
    unfold cutAfter
    cases hc : cutAfter n is with
    | some d =>
      rw [hc] at ih
      simp only [] at ih ⊢
      obtain ⟨h1, h2, h3⟩ := ih
      refine ⟨List.prefix_cons_inj i |>.2 h1, ?_⟩
      cases i with
      | data r =>
        simp only [dataOf]
        have hle : r.seq ≤ n := by
          obtain ⟨x, hx⟩ := List.exists_mem_of_ne_nil _ h3
          have hx2 := hx
          rw [h2] at hx2
          obtain ⟨hx3, hx4⟩ := List.mem_filter.1 hx2
          have := (List.pairwise_cons.1 hinc).1 x hx3
          simp at hx4
          omega
        rw [List.filter_cons_of_pos (by simpa using hle), h2]
        exact ⟨rfl, by simp⟩
      | flushMarker s => exact ⟨h2, h3⟩
      | checkpoint c => exact ⟨h2, h3⟩
    | none =>
      rw [hc] at ih
      simp only [] at ih ⊢
      cases i with
      | data r =>
        simp only []
        by_cases hr : r.seq ≤ n
        · rw [if_pos hr]
          simp only [dataOf]
          rw [List.filter_cons_of_pos (by simpa using hr), ih]
          exact ⟨List.prefix_append [DItem.data r] is, rfl, by simp⟩
        · rw [if_neg hr]
          simp only [dataOf]
          rw [List.filter_cons_of_neg (by simpa using hr), ih]
      | flushMarker s => exact ih
      | checkpoint c => exact ih

/-- No flush mark; the lowest, the highest and the synced number of a file are those of records. -/
structure Low (l : LogMgr K) : Prop where
  fl : ∀ f ∈ l.files, f.mem.flushedSeqNum = NIL
  mn : ∀ f ∈ l.files, f.mem.maxSeqNum ≠ NIL → ∃ r ∈ f.mem.bySeq, r.seq = f.mem.minSeqNum
  tp : ∀ f ∈ l.files, f.mem.maxSeqNum ≠ NIL → ∃ r ∈ f.mem.bySeq, r.seq = f.mem.maxSeqNum
  sy : ∀ f ∈ l.files, f.mem.syncedSeqNum ≠ NIL → ∃ r ∈ f.mem.bySeq, r.seq = f.mem.syncedSeqNum

/-- The invariant of a log section that is never flushed. -/
structure LRInv (l : LogMgr K) (B : List (Rec K)) : Prop where
  log : LogInv l [] B
  store : SInv l
  low : Low l

theorem above_nil (L : List (Rec K)) : above NIL L = L := by
  unfold above
  rw [List.filter_eq_self]
  intro r _
  have : valid NIL = false := by decide
  simp [this]

theorem pending_nil {f : LogFile K} (h : f.mem.flushedSeqNum = NIL) : f.pending = f.mem.bySeq := by
  have := above_nil f.mem.bySeq
  unfold LogFile.pending
  rw [h]; exact this

theorem stored_all {f : LogFile K} (h : f.mem.flushedSeqNum = NIL) : f.stored = dataOf f.disk := by
  unfold LogFile.stored; rw [h, above_nil]

theorem Low.put {l l' : LogMgr K} (h : Low l) (hp : PutStep l l') : Low l' := by
  cases hp with
  | @same fs f m' r q hf hput h0 hN hgt =>
    have hff : f ∈ l.files := by rw [hf]; simp
    have hx : ∀ x ∈ fs ++ [({ f with mem := m' } : LogFile K)], x ∈ l.files ∨ x = { f with mem := m' } := by
      intro x hx
      rcases List.mem_append.1 hx with hx | hx
      · left; rw [hf]; simp [hx]
      · right; simpa using hx
    refine ⟨?_, ?_, ?_, ?_⟩ <;> intro x hx' <;> rcases hx x hx' with hx | rfl
    · exact h.fl x hx
    · simp only [hput.flushed]; exact h.fl f hff
    · exact h.mn x hx
    · simp only [hput.bySeq, hput.min]
      intro _
      by_cases hm : f.mem.maxSeqNum = NIL
      · rw [if_pos hm]; exact ⟨MemTable.accepted r q, by simp, rfl⟩
      · rw [if_neg hm]
        obtain ⟨y, hy, e⟩ := h.mn f hff hm
        exact ⟨y, by simp [hy], e⟩
    · exact h.tp x hx
    · simp only [hput.bySeq, hput.max]
      intro _
      exact ⟨MemTable.accepted r q, by simp, rfl⟩
    · exact h.sy x hx
    · simp only [hput.bySeq, hput.synced]
      intro hs
      obtain ⟨y, hy, e⟩ := h.sy f hff hs
      exact ⟨y, by simp [hy], e⟩
  | @new fs f m' r q hf hm hput h0 hN =>
    have e0 : (MemTable.init (inc64 f.mem.maxSeqNum) : MemTable K).maxSeqNum = NIL := rfl
    refine ⟨?_, ?_, ?_, ?_⟩ <;> intro x hx <;> rcases List.mem_append.1 hx with hx | hx
    · exact h.fl x (by rw [hf]; exact hx)
    · simp only [List.mem_singleton] at hx; subst hx
      simp only [hput.flushed]; rfl
    · exact h.mn x (by rw [hf]; exact hx)
    · simp only [List.mem_singleton] at hx; subst hx
      simp only [hput.bySeq, hput.min]
      intro _
      rw [if_pos e0]
      exact ⟨MemTable.accepted r q, by simp, rfl⟩
    · exact h.tp x (by rw [hf]; exact hx)
    · simp only [List.mem_singleton] at hx; subst hx
      simp only [hput.bySeq, hput.max]
      intro _
      exact ⟨MemTable.accepted r q, by simp, rfl⟩
    · exact h.sy x (by rw [hf]; exact hx)
    · simp only [List.mem_singleton] at hx; subst hx
      simp only [hput.synced]
      intro hs; exact absurd rfl hs

theorem Low.puts {l l' : LogMgr K} (h : Low l) (hp : PutSteps l l') : Low l' := by
  induction hp with
  | refl => exact h
  | step h1 _ _ _ ih => exact ih (h.put h1)

theorem LRInv.init (c : Cfg) (h : LogInv (LogMgr.init c : LogMgr K) [] []) : LRInv (LogMgr.init c : LogMgr K) [] := by
  refine ⟨h, SInv.init c, ?_, ?_, ?_, ?_⟩ <;> intro f hf <;> simp only [LogMgr.init, List.mem_singleton] at hf <;> subst hf
  · rfl
  · intro hm; exact absurd rfl hm
  · intro hm; exact absurd rfl hm
  · intro hm; exact absurd rfl hm

/-- A sync: everything is on disk. -/
theorem LRInv.sync {l : LogMgr K} {B} (h : LRInv l B) :
    ∃ l', l.sync = (.ok, l') ∧ LRInv l' B ∧ l'.cfg = l.cfg ∧ l'.maxNum = l.maxNum ∧
      l'.getMaxSeqNum = l.getMaxSeqNum ∧
      ∀ f ∈ l'.files, dataOf f.disk = f.mem.bySeq ∧ (f.mem.maxSeqNum ≠ NIL → f.mem.syncedSeqNum = f.mem.maxSeqNum) := by
  obtain ⟨l', h1, h2, h3, h4, -, h5⟩ := h.log.sync
  have e := h.log.sync_eq h.store
  have el : l' = { l with files := l.files.map l.syncOne, lastSynced := l.maxNum } :=
    congrArg Prod.snd (h1.symm.trans e)
  have hs := h.store.sync h.log
  rw [← el] at hs
  have hfl : l'.files = l.files.map l.syncOne := by rw [el]
  have hlow : Low l' := by
    refine ⟨?_, ?_, ?_, ?_⟩ <;> intro f hf <;> rw [hfl] at hf <;> obtain ⟨g, hg, rfl⟩ := List.mem_map.1 hf <;>
      have hr := h.log.syncOne_rel hg
    · rw [hr.flushed]; exact h.low.fl g hg
    · rw [hr.max, hr.bySeq, hr.min]; exact h.low.mn g hg
    · rw [hr.max, hr.bySeq]; exact h.low.tp g hg
    · rw [hr.bySeq]
      rcases hr.synced with e | ⟨e1, e2⟩
      · rw [e]; exact h.low.sy g hg
      · rw [e2]; exact h.low.tp g hg
  refine ⟨l', h1, ⟨h2, hs, hlow⟩, h3, h4, h5, ?_⟩
  intro f hf
  have hf0 := hlow.fl f hf
  rw [hfl] at hf
  obtain ⟨g, hg, rfl⟩ := List.mem_map.1 hf
  have hr := h.log.syncOne_rel hg
  obtain ⟨-, -, s3, s4, -, -⟩ := h.store.syncOne h.log hg
  refine ⟨?_, by rw [hr.max]; exact s4⟩
  rw [← stored_all hf0, s3, hr.bySeq, pending_nil (h.low.fl g hg)]

theorem LRInv.checkpoint {l : LogMgr K} {B} (h : LRInv l B) : LRInv l.checkpoint.1 B := by
  refine ⟨h.log.checkpoint.1, (h.store.mark h.log).1, ?_⟩
  obtain ⟨fs, f, hf⟩ := h.log.split_last
  have hff : f ∈ l.files := by rw [hf]; simp
  have hfi : l.file? l.maxNum = some f := by
    rw [← h.log.last_num hf]; exact h.log.file?_mem hff
  unfold LogMgr.checkpoint
  simp only [hfi]
  have key : ∀ f' : LogFile K, f' = { f with mem := f.mem.checkpoint.1, coldChk := f.coldChk || f.immutable } →
      f'.num = f.num ∧ f'.mem.bySeq = f.mem.bySeq ∧
      f'.mem.flushedSeqNum = f.mem.flushedSeqNum ∧ f'.mem.minSeqNum = f.mem.minSeqNum ∧
      f'.mem.maxSeqNum = f.mem.maxSeqNum ∧ f'.mem.syncedSeqNum = f.mem.syncedSeqNum := by
    intro f' e; subst e
    unfold MemTable.checkpoint
    split
    · exact ⟨rfl, rfl, rfl, rfl, rfl, rfl⟩
    · split <;> exact ⟨rfl, rfl, rfl, rfl, rfl, rfl⟩
  generalize hf' : ({ f with mem := f.mem.checkpoint.1, coldChk := f.coldChk || f.immutable } : LogFile K) = f' at key
  obtain ⟨k1, k2, k3, k4, k5, k6⟩ := key f' rfl
  rw [h.log.setFile_last (f' := f') hf k1]
  refine ⟨?_, ?_, ?_, ?_⟩ <;> intro x hx <;> rcases List.mem_append.1 hx with hx | hx
  · exact h.low.fl x (by rw [hf]; simp [hx])
  · simp only [List.mem_singleton] at hx; subst hx; rw [k3]; exact h.low.fl f hff
  · exact h.low.mn x (by rw [hf]; simp [hx])
  · simp only [List.mem_singleton] at hx; subst hx; rw [k5, k2, k4]; exact h.low.mn f hff
  · exact h.low.tp x (by rw [hf]; simp [hx])
  · simp only [List.mem_singleton] at hx; subst hx; rw [k5, k2]; exact h.low.tp f hff
  · exact h.low.sy x (by rw [hf]; simp [hx])
  · simp only [List.mem_singleton] at hx; subst hx; rw [k6, k2]; exact h.low.sy f hff

theorem bySeqEntry_in {seq : Nat} {f} {l : LogMgr K}
    (h : l.bySeqEntry seq = some f) : f ∈ l.files := by
  unfold LogMgr.bySeqEntry at h
  rcases fold_mem seq l.files none f h with h1 | h1
  · exact h1
  · cases h1

theorem fileBySeq_some {l : LogMgr K} {n : Nat} {f : LogFile K} (h : l.fileBySeq n = some f) :
    f ∈ l.files ∧ (f.mem.minSeqNum = NIL ∨ f.mem.minSeqNum ≤ n) ∧ n ≤ f.mem.maxSeqNum := by
  unfold LogMgr.fileBySeq at h
  split at h
  · cases h
  · next g hg =>
    have hm := bySeqEntry_in hg
    by_cases h1 : valid g.mem.minSeqNum ∧ g.mem.minSeqNum > n
    · rw [if_pos h1] at h; cases h
    · rw [if_neg h1] at h
      by_cases h2 : g.mem.maxSeqNum < n
      · rw [if_pos h2] at h
        simp at h
      · rw [if_neg h2] at h
        cases h
        refine ⟨hm, ?_, by omega⟩
        by_cases h3 : f.mem.minSeqNum = NIL
        · exact Or.inl h3
        · right
          by_contra h4
          exact h1 ⟨valid_iff.2 h3, by omega⟩

/-- The memtable of a truncated and reloaded file. -/
theorem load_wf {items : List (DItem K)} {m : MemTable K} {a c : Nat} (h : Loaded items a NIL c m)
    (hinc : Increasing (dataOf items)) (hne : dataOf items ≠ [])
    (hb : ∀ r ∈ dataOf items, a ≤ r.seq ∧ 0 < r.seq ∧ r.seq < NIL) :
    m.WF ∧ m.maxSeqNum ≠ NIL ∧ m.syncedSeqNum = m.maxSeqNum ∧
      (∃ r ∈ dataOf items, r.seq = m.maxSeqNum) ∧ ∀ r ∈ dataOf items, r.seq ≤ m.maxSeqNum := by
  obtain ⟨x, hx⟩ : ∃ x, (dataOf items).getLast? = some x := by
    cases hl : (dataOf items).getLast? with
    | none => exact absurd (List.getLast?_eq_none_iff.1 hl) hne
    | some x => exact ⟨x, rfl⟩
  obtain ⟨e1, e2, e3⟩ := h.some x hx
  have hxm := List.mem_of_getLast? hx
  obtain ⟨b1, b2, b3⟩ := hb x hxm
  have hlk := h.look hinc
  have hle : ∀ r ∈ dataOf items, r.seq ≤ m.maxSeqNum := by
    have := hlk.le; rw [h.bySeq] at this; exact this
  have hN : m.maxSeqNum ≠ NIL := by rw [e1]; omega
  refine ⟨⟨hlk.sorted, h.idx.keys, h.idx.weak, by rw [e1, e2], fun e => absurd e hN, by rw [e1]; omega, ?_, ?_, ?_,
    Or.inl h.flushed, Or.inr (Or.inl h.flushed)⟩, hN, by rw [e1, e3], ⟨x, hxm, e1.symm⟩, hle⟩
  · rw [h.bySeq, h.min]
    intro r hr
    obtain ⟨c1, c2, c3⟩ := hb r hr
    exact ⟨c1, hle r hr, c2, c3⟩
  · intro _; rw [h.min, e1]; omega
  · right; rw [e1, e3]; omega

theorem range'_prefix {a : Nat} {X Y : List Nat} {n : Nat} (h : X ++ Y = List.range' a n) :
    X = List.range' a X.length := by
  have h1 := congrArg (List.take X.length) h
  rw [List.take_left] at h1
  have hl := congrArg List.length h
  simp only [List.length_append, List.length_range'] at hl
  rw [h1]
  have : List.range' a n = List.range' a X.length ++ List.range' (a + X.length) (n - X.length) := by
    rw [List.range'_append_1]; congr 1; omega
  rw [this, List.take_left' (by simp)]
  simp

/-- The log section after the files behind `f` are gone and `f` is cut. -/
theorem LRInv.cut {l : LogMgr K} {B} (h : LRInv l B) {P Q : List (LogFile K)} {f f' : LogFile K} {n : Nat}
    {d : List (DItem K)}
    (hf : l.files = P ++ f :: Q)
    (hs : ∀ g ∈ l.files, dataOf g.disk = g.mem.bySeq ∧ (g.mem.maxSeqNum ≠ NIL → g.mem.syncedSeqNum = g.mem.maxSeqNum))
    (hm : f.mem.maxSeqNum ≠ NIL) (hmin : f.mem.minSeqNum ≤ n) (hmax : n ≤ f.mem.maxSeqNum)
    (hd : dataOf d = f.mem.bySeq.filter (fun r => decide (r.seq ≤ n))) (hdn : dataOf d ≠ [])
    (e1 : f'.num = f.num) (e2 : f'.startSeq = f.startSeq) (e3 : Loaded d f.mem.minSeqNum NIL n f'.mem)
    (e4 : f'.disk = d) (e5 : f'.torn = false) (e6 : f'.integrity ≠ .corrupted) :
    LRInv { l with files := P ++ [f'], maxNum := f.num, lastSynced := f.num } (B.filter (fun r => decide (r.seq ≤ n))) ∧
      ∃ r ∈ B.filter (fun r => decide (r.seq ≤ n)), r.seq = f'.mem.maxSeqNum := by
  have hff : f ∈ l.files := by rw [hf]; simp
  have hP : ∀ g ∈ P, g ∈ l.files := fun g hg => by rw [hf]; simp [hg]
  have hQ : ∀ g ∈ Q, g ∈ l.files := fun g hg => by rw [hf]; simp [hg]
  have ho := h.log.order
  rw [hf] at ho
  have ho1 := List.pairwise_append.1 ho
  have ho2 := List.pairwise_cons.1 ho1.2.1
  have hw := h.log.wf f hff
  have hr := h.log.num_range hff
  have hN := h.log.numN
  have hinc : Increasing (dataOf d) := by rw [hd]; exact List.Pairwise.sublist List.filter_sublist hw.sorted
  have hsub : ∀ r ∈ dataOf d, r ∈ f.mem.bySeq ∧ r.seq ≤ n := by
    intro r hr; rw [hd] at hr; obtain ⟨a, b⟩ := List.mem_filter.1 hr; exact ⟨a, by simpa using b⟩
  obtain ⟨w, wm, ws, wx, wle⟩ := load_wf e3 hinc hdn (fun r hr => by
    have := hw.bound r (hsub r hr).1; exact ⟨this.1, this.2.2⟩)
  obtain ⟨x, hxd, hxm⟩ := wx
  have hminN : f.mem.minSeqNum ≠ NIL := (h.store.ok f hff).min hm
  have hPlt : ∀ p ∈ P, ∀ r ∈ dataOf d, p.mem.maxSeqNum < r.seq := fun p hp r hr =>
    (ho1.2.2 p hp f (by simp)).recs (ho1.2.2 p hp f (by simp)).ne r (hsub r hr).1
  have hbef : ∀ p ∈ P, Before p f' := by
    intro p hp
    have hb := ho1.2.2 p hp f (by simp)
    have hx := hPlt p hp x hxd
    refine ⟨by rw [e1]; exact hb.num, fun _ => ⟨wm, by omega⟩, fun _ r hr => ?_, fun hpm hne => ?_,
      fun _ _ => by rw [ws]; omega, by rw [e2]; exact hb.start, e3.flushed, by rw [e2]; exact hb.startLe, hb.ne⟩
    · rw [e3.bySeq] at hr; exact hPlt p hp r hr
    · rw [e3.min]; exact hb.min hpm hminN
  have hB : (P ++ [f']).flatMap LogFile.pending = B.filter (fun r => decide (r.seq ≤ n)) := by
    rw [h.log.pend, hf]
    simp only [List.flatMap_append, List.flatMap_cons, List.flatMap_nil, List.append_nil, List.filter_append]
    have hpP : (P.flatMap LogFile.pending).filter (fun r => decide (r.seq ≤ n)) = P.flatMap LogFile.pending := by
      rw [List.filter_eq_self]
      intro r hr
      obtain ⟨p, hp, hrp⟩ := List.mem_flatMap.1 hr
      have hb := ho1.2.2 p hp f (by simp)
      have a1 := ((h.log.wf p (hP p hp)).bound r (pending_sub hrp)).2.1
      have a2 := hb.min hb.ne hminN
      simp; omega
    have hpQ : (Q.flatMap LogFile.pending).filter (fun r => decide (r.seq ≤ n)) = [] := by
      rw [List.filter_eq_nil_iff]
      intro r hr
      obtain ⟨q, hq, hrq⟩ := List.mem_flatMap.1 hr
      have a1 := (ho2.1 q hq).recs hm r (pending_sub hrq)
      simp; omega
    rw [hpP, hpQ, pending_nil (h.low.fl f hff)]
    rw [pending_nil e3.flushed, e3.bySeq, hd, List.append_nil]
  have hfx : ∀ g ∈ P ++ [f'], g ∈ P ∨ g = f' := by
    intro g hg; simpa using hg
  have hminNum : ({ l with files := P ++ [f'], maxNum := f.num, lastSynced := f.num } : LogMgr K).minNum = l.minNum := by
    unfold LogMgr.minNum
    rw [hf]
    cases P with
    | nil => exact e1
    | cons p P => rfl
  have hsf : ({ l with files := P ++ [f'], maxNum := f.num, lastSynced := f.num } : LogMgr K).syncFrom = f.num := by
    unfold LogMgr.syncFrom; rw [if_pos (by show f.num ≠ NIL; omega)]
  have hsy : ∀ p ∈ P, p.mem.syncedSeqNum = p.mem.maxSeqNum ∧ p.mem.maxSeqNum ≠ NIL := fun p hp =>
    have hne := (ho1.2.2 p hp f (by simp)).ne
    ⟨(hs p (hP p hp)).2 hne, hne⟩
  refine ⟨⟨?_, ?_, ?_⟩, ?_⟩
  · refine ⟨h.log.rw, h.log.noOv, h.log.bar, by simp, ?_, by show f.num < NIL; omega, ?_, ?_, h.log.entries, ?_, ?_, ?_,
      ?_, ?_, ?_, fun _ _ _ r hr => (by cases hr), hB.symm, ?_, ?_⟩
    · obtain ⟨a, n1, n2⟩ := h.log.nums
      rw [hf] at n1
      have n3 : (P ++ [f']).map (·.num) ++ Q.map (·.num) = List.range' a (P ++ f :: Q).length := by
        rw [← n1]; simp [e1]
      refine ⟨a, ?_, ?_⟩
      · have := range'_prefix n3
        rw [List.length_map] at this
        exact this
      · have h3 := h.log.num_eq P.length (by rw [hf]; simp)
        have h4 := h.log.minNum_eq
        have h5 : a + l.files.length = l.minNum + l.files.length := by omega
        simp only [hf, List.getElem_append_right (Nat.le_refl _), Nat.sub_self, List.getElem_cons_zero] at h3
        show f.num + 1 = a + (P ++ [f']).length
        simp only [List.length_append, List.length_singleton]
        omega
    · intro g hg
      rcases hfx g hg with hg | rfl
      · exact h.log.wf g (hP g hg)
      · exact w
    · intro g hg
      rcases hfx g hg with hg | rfl
      · exact h.log.own g (hP g hg)
      · refine ⟨fun r hr => ?_, fun _ => ?_, fun e => absurd e wm⟩
        · rw [e2]; rw [e3.bySeq] at hr; exact (h.log.own f hff).recs r (hsub r hr).1
        · rw [e2]; have := (h.log.own f hff).recs x (hsub x hxd).1; omega
    · intro g hg e
      rcases hfx g hg with hg | rfl
      · exact absurd e (hsy g hg).2
      · exact absurd e wm
    · intro g hg e
      rcases hfx g hg with hg | rfl
      · exact absurd e (hsy g hg).2
      · exact absurd e wm
    · rw [List.pairwise_append]
      exact ⟨ho1.1, by simp, fun p hp g hg => by simp only [List.mem_singleton] at hg; subst hg; exact hbef p hp⟩
    · rw [hminNum]; exact h.log.lastF
    · right; rw [hminNum]; exact ⟨hr.1, Nat.le_refl _⟩
    · intro _ g hg _ hgm
      rcases hfx g hg with hg | rfl
      · rw [(hsy g hg).1]; exact hgm
      · rw [ws]; exact hgm
    · exact List.Pairwise.sublist List.filter_sublist h.log.inc
    · intro fs g hg
      have hg' : P ++ [f'] = fs ++ [g] := hg
      obtain ⟨-, e⟩ := List.append_inj' hg' rfl
      simp only [List.cons.injEq, and_true] at e
      subst e
      refine ⟨fun e => absurd e wm, fun _ r hr => ?_⟩
      simp only [List.nil_append] at hr
      rw [← hB] at hr
      obtain ⟨g, hg, hrg⟩ := List.mem_flatMap.1 hr
      rcases hfx g hg with hg | rfl
      · have a1 := ((h.log.wf g (hP g hg)).bound r (pending_sub hrg)).2.1
        have a2 := hPlt g hg x hxd
        omega
      · exact (w.bound r (pending_sub hrg)).2.1
  · refine ⟨?_, ?_, ?_, ?_, ?_⟩ <;> intro g hg <;> rcases hfx g hg with hg | rfl
    · exact h.store.ok g (hP g hg)
    · refine ⟨by rw [e4]; exact hinc, by rw [e4, e3.bySeq]; exact fun r hr => hr, fun _ => by rw [e4, ws]; exact wle,
        fun e => absurd (ws ▸ e) wm, fun _ => ?_, e5, e6, fun _ => by rw [e3.min]; exact hminN⟩
      rw [stored_all e3.flushed, pending_nil e3.flushed, e4, e3.bySeq, ws]
      symm; rw [List.filter_eq_self]
      intro r hr; simpa using wle r hr
    · intro _; exact (hsy g hg).1
    · intro _; exact ws
    · rw [hsf]; intro hlt
      have := (ho1.2.2 g hg f (by simp)).num
      omega
    · rw [hsf, e1]; intro hlt; omega
    · rw [hminNum]; exact h.store.disk g (hP g hg)
    · intro _ _ hd0; rw [e4] at hd0; rw [hd0] at hdn; exact hdn rfl
    · intro _; right; exact hsf
    · intro _; right; exact hsf
  · refine ⟨?_, ?_, ?_, ?_⟩ <;> intro g hg <;> rcases hfx g hg with hg | rfl
    · exact h.low.fl g (hP g hg)
    · exact e3.flushed
    · exact h.low.mn g (hP g hg)
    · intro _
      obtain ⟨y, hy, he⟩ := h.low.mn f hff hm
      refine ⟨y, ?_, by rw [e3.min]; exact he⟩
      rw [e3.bySeq, hd]
      exact List.mem_filter.2 ⟨hy, by simp; omega⟩
    · exact h.low.tp g (hP g hg)
    · intro _; exact ⟨x, by rw [e3.bySeq]; exact hxd, hxm⟩
    · exact h.low.sy g (hP g hg)
    · intro _; exact ⟨x, by rw [e3.bySeq]; exact hxd, by rw [ws]; exact hxm⟩
  · refine ⟨x, ?_, hxm⟩
    rw [← hB]
    refine List.mem_flatMap.2 ⟨f', by simp, ?_⟩
    rw [pending_nil e3.flushed, e3.bySeq]; exact hxd

theorem maybeClose_same (f : LogFile K) : f.maybeClose.num = f.num ∧ f.maybeClose.startSeq = f.startSeq ∧
    f.maybeClose.mem = f.mem ∧ f.maybeClose.disk = f.disk ∧ f.maybeClose.torn = f.torn ∧
    f.maybeClose.immutable = f.immutable ∧ (f.integrity ≠ .corrupted → f.maybeClose.integrity ≠ .corrupted) := by
  unfold LogFile.maybeClose
  split
  · exact ⟨rfl, rfl, rfl, rfl, rfl, rfl, fun _ => by simp⟩
  · exact ⟨rfl, rfl, rfl, rfl, rfl, rfl, id⟩

/-- Truncating the file of record `n` in a completely synced log section with records. -/
theorem LRInv.truncate {l1 : LogMgr K} {B} (s2 : LRInv l1 B) (hne : B ≠ []) {n : Nat} {f : LogFile K}
    (s6 : ∀ f ∈ l1.files, dataOf f.disk = f.mem.bySeq ∧ (f.mem.maxSeqNum ≠ NIL → f.mem.syncedSeqNum = f.mem.maxSeqNum))
    (hfs : l1.fileBySeq n = some f) :
    f ∈ l1.files ∧ f.mem.maxSeqNum ≠ NIL ∧ f.mem.minSeqNum ≤ n ∧ n ≤ f.mem.maxSeqNum ∧
    ∃ d f1, f.truncate n = (.ok, f1) ∧ f1.num = f.num ∧ f1.startSeq = f.startSeq ∧ f1.disk = d ∧ f1.torn = false ∧
      f1.integrity ≠ .corrupted ∧ f1.mem.minSeqNum = f.mem.minSeqNum ∧ f1.mem.flushedSeqNum = f.mem.flushedSeqNum ∧
      f1.mem.syncedSeqNum = n ∧ dataOf d = f.mem.bySeq.filter (fun r => decide (r.seq ≤ n)) ∧ dataOf d ≠ [] := by
  obtain ⟨hf, hmin, hmax⟩ := fileBySeq_some hfs
  have hm : f.mem.maxSeqNum ≠ NIL := by
    intro hm
    obtain ⟨fs, g, hg⟩ := s2.log.split_last
    have hn := s2.log.empty_last hf hm
    have hfg : f = g := by
      have a1 := s2.log.file?_mem hf
      have a2 := s2.log.file?_mem (f := g) (by rw [hg]; simp)
      rw [s2.log.last_num hg, ← hn] at a2
      exact Option.some.inj (a1.symm.trans a2)
    subst hfg
    exact hne ((s2.log.top fs f hg).1 hm).1
  have hminN : f.mem.minSeqNum ≠ NIL := (s2.store.ok f hf).min hm
  have hmin : f.mem.minSeqNum ≤ n := by
    rcases hmin with h1 | h1
    · exact absurd h1 hminN
    · exact h1
  obtain ⟨y, hy, hye⟩ := s2.low.mn f hf hm
  have hdisk := (s6 f hf).1
  have hw := s2.log.wf f hf
  have hcut := cutAfter_spec n f.disk (by rw [hdisk]; exact hw.sorted)
  have htorn := (s2.store.ok f hf).torn
  have hinteg := (s2.store.ok f hf).integ
  cases hc : cutAfter n f.disk with
  | none =>
    rw [hc] at hcut
    simp only [] at hcut
    rw [List.filter_eq_nil_iff, hdisk] at hcut
    have := hcut y hy
    simp at this
    omega
  | some d =>
    rw [hc] at hcut
    obtain ⟨-, c2, c3⟩ := hcut
    rw [hdisk] at c2
    have htr : ∃ f1, f.truncate n = (.ok, f1) ∧ f1.num = f.num ∧ f1.startSeq = f.startSeq ∧ f1.disk = d ∧ f1.torn = false ∧
        f1.integrity ≠ .corrupted ∧ f1.mem.minSeqNum = f.mem.minSeqNum ∧ f1.mem.flushedSeqNum = f.mem.flushedSeqNum ∧
        f1.mem.syncedSeqNum = n := by
      unfold LogFile.truncate
      simp only [htorn, Bool.false_eq_true, if_false, hc]
      have k : ∀ f0 : LogFile K, f.opened = f0 →
          f0.num = f.num ∧ f0.startSeq = f.startSeq ∧ f0.torn = false ∧ f0.integrity ≠ .corrupted ∧ f0.mem = f.mem := by
        intro f0 e; subst e
        unfold LogFile.opened
        split
        · exact ⟨rfl, rfl, htorn, hinteg, rfl⟩
        · exact ⟨rfl, rfl, htorn, by simp, rfl⟩
      generalize f.opened = f0 at k
      obtain ⟨k1, k2, k3, k4, k5⟩ := k f0 rfl
      obtain ⟨m1, m2, m3, m4, m5, m6, m7⟩ := maybeClose_same
        ({ f0 with mem := { f0.mem with maxSeqNum := n, syncedSeqNum := n, seqNumAlloc := n }, disk := d } : LogFile K)
      exact ⟨_, rfl, m1.trans k1, m2.trans k2, m4, m5.trans k3, m7 k4, by rw [m3, ← k5], by rw [m3, ← k5], by rw [m3]⟩
    obtain ⟨f1, t0, t1, t2, t3, t4, t5, t6, t7, t8⟩ := htr
    exact ⟨hf, hm, hmin, hmax, d, f1, t0, t1, t2, t3, t4, t5, t6, t7, t8, c2, c3⟩

/-- A rollback of a log section with records: it keeps exactly the records up to `n`, or it
    refuses and changes nothing but the sync state. -/
theorem LRInv.rollback {l : LogMgr K} {B} (h : LRInv l B) (hne : B ≠ []) (n : Nat) :
    (∃ l', l.rollback n = (.ok, l') ∧ LRInv l' (B.filter (fun r => decide (r.seq ≤ n))) ∧ l'.cfg = l.cfg ∧
      ∃ r ∈ B.filter (fun r => decide (r.seq ≤ n)), l'.getMaxSeqNum = some r.seq ∧
        ∀ f ∈ l'.files, f.mem.syncedSeqNum = f.mem.maxSeqNum) ∨
    (∃ l', l.rollback n = (.logFileNotFound, l') ∧ LRInv l' B ∧ l'.cfg = l.cfg ∧
      l'.getMaxSeqNum = l.getMaxSeqNum ∧ ∀ r ∈ B, r.seq ≠ n) := by
  obtain ⟨l1, s1, s2, s3, s4, s5, s6⟩ := h.sync
  unfold LogMgr.rollback LogMgr.rollbackCore
  rw [if_neg (by simp [h.log.rw]), s1]
  simp only []
  cases hfs : l1.fileBySeq n with
  | none =>
    right
    refine ⟨l1, rfl, s2, s3, s5, ?_⟩
    intro r hr e
    rw [s2.log.pend] at hr
    obtain ⟨f, hf, hrf⟩ := List.mem_flatMap.1 hr
    have := s2.log.fileBySeq_rec hf (pending_sub hrf) false
    rw [e, hfs] at this
    cases this
  | some f =>
    left
    simp only []
    obtain ⟨hf, hm, hmin, hmax, d, f1, t0, t1, t2, t3, t4, t5, t6, t7, t8, c2, c3⟩ := s2.truncate hne s6 hfs
    have hw := s2.log.wf f hf
    rw [t0]
    simp only []
    obtain ⟨P, Q, hPQ⟩ := List.append_of_mem hf
    have ho := s2.log.order
    rw [hPQ] at ho
    have ho1 := List.pairwise_append.1 ho
    have ho2 := List.pairwise_cons.1 ho1.2.1
    have hflt : l1.files.filter (fun g => decide (g.num < f.num)) = P := by
      rw [hPQ, List.filter_append]
      have a1 : P.filter (fun g => decide (g.num < f.num)) = P := by
        rw [List.filter_eq_self]; intro p hp
        have := (ho1.2.2 p hp f (by simp)).num
        simpa using this
      have a2 : (f :: Q).filter (fun g => decide (g.num < f.num)) = [] := by
        rw [List.filter_eq_nil_iff]; intro q hq
        rcases List.mem_cons.1 hq with rfl | hq
        · simp
        · have := (ho2.1 q hq).num
          simp; omega
      rw [a1, a2, List.append_nil]
    rw [hflt]
    have hPn : ∀ p ∈ P, p.num ≠ f.num := fun p hp => Nat.ne_of_lt (ho1.2.2 p hp f (by simp)).num
    have hfi : ({ l1 with files := P ++ [{ f1 with immutable := true }], maxNum := f.num, lastSynced := f.num } : LogMgr K).file? f.num =
        some { f1 with immutable := true } := by
      unfold LogMgr.file?
      simp only []
      rw [List.find?_append, List.find?_eq_none.2 (fun p hp => by simpa using hPn p hp)]
      simp [t1]
    rw [hfi]
    simp only []
    generalize hf'' : ({ f1 with immutable := true } : LogFile K).reload = f'
    have hload := load_ok d f.mem.minSeqNum f.mem.flushedSeqNum n (by rw [c2]; exact List.Pairwise.sublist List.filter_sublist hw.sorted)
    have hr : f'.num = f.num ∧ f'.startSeq = f.startSeq ∧ Loaded d f.mem.minSeqNum NIL n f'.mem ∧ f'.disk = d ∧
        f'.torn = false ∧ f'.integrity ≠ .corrupted := by
      rw [← hf'']
      unfold LogFile.reload
      obtain ⟨m1, m2, m3, m4, m5, m6, m7⟩ := maybeClose_same
        ({ ({ f1 with immutable := true } : LogFile K) with
          fOpen := true
          mem := MemTable.load f1.disk f1.mem.minSeqNum f1.mem.flushedSeqNum f1.mem.syncedSeqNum } : LogFile K)
      refine ⟨by rw [m1]; exact t1, by rw [m2]; exact t2, ?_, by rw [m4]; exact t3, by rw [m5]; exact t4, m7 t5⟩
      rw [m3]
      simp only [t3, t6, t7, t8]
      rw [s2.low.fl f hf] at hload ⊢
      exact hload
    obtain ⟨r1, r2, r3, r4, r5, r6⟩ := hr
    have hset : ({ l1 with files := P ++ [{ f1 with immutable := true }], maxNum := f.num, lastSynced := f.num } : LogMgr K).setFile f' =
        { l1 with files := P ++ [f'], maxNum := f.num, lastSynced := f.num } := by
      unfold LogMgr.setFile
      simp only [List.map_append, List.map_cons, List.map_nil, t1, r1, beq_self_eq_true, if_true]
      congr 1
      congr 1
      conv => rhs; rw [← List.map_id P]
      apply List.map_congr_left
      intro p hp
      rw [if_neg (by simpa using hPn p hp)]; rfl
    rw [hset]
    obtain ⟨z1, z2, hz, hze⟩ := s2.cut hPQ s6 hm hmin hmax c2 c3 r1 r2 r3 r4 r5 r6
    obtain ⟨-, wm, ws, -⟩ := load_wf r3 (by rw [c2]; exact List.Pairwise.sublist List.filter_sublist hw.sorted) c3 (fun r hr => by
      rw [c2] at hr
      have := hw.bound r (List.mem_filter.1 hr).1; exact ⟨this.1, this.2.2⟩)
    refine ⟨_, rfl, z1, s3, z2, hz, ?_, ?_⟩
    rotate_left
    · intro g hg
      rcases List.mem_append.1 hg with hg | hg
      · exact (s6 g (by rw [hPQ]; simp [hg])).2 (ho1.2.2 g hg f (by simp)).ne
      · rw [List.mem_singleton.1 hg]; exact ws
    have := z1.log.getMax_eq (fs := P) (f := f') rfl
    rw [this]
    rw [if_pos wm, hze]

end Jungle
