/-
  Log files that hold on disk everything up to their synced number.
-/
import Verif.Log.Reopen
import Verif.Log.Wrote

namespace Jungle
open Spec
set_option linter.unusedSectionVars false

variable {K : Type} [LinearOrder K]

/-- The number of the last record, or the one before the items. -/
def lastNum : Option Nat → List (DItem K) → Option Nat
  | o, [] => o
  | _, .data r :: L => lastNum (some r.seq) L
  | o, .flushMarker _ :: L => lastNum o L
  | o, .checkpoint _ :: L => lastNum o L

theorem lastNum_eq (o : Option Nat) (I : List (DItem K)) :
    lastNum o I = match (dataOf I).getLast? with
      | some r => some r.seq
      | none => o := by
  induction I generalizing o with
  | nil => rfl
  | cons x I ih =>
    cases x with
    | data r =>
      simp only [lastNum, dataOf, ih]
      cases h : dataOf I with
      | nil => rfl
      | cons y L =>
        rw [List.getLast?_cons_cons]
        cases hh : (y :: L).getLast? with
        | none => simp at hh
        | some z => rfl
    | flushMarker s => simp only [lastNum, dataOf, ih]
    | checkpoint c => simp only [lastNum, dataOf, ih]

theorem marked_append (o : Option Nat) (I J : List (DItem K)) :
    marked o (I ++ J) = (marked o I && marked (lastNum o I) J) := by
  induction I generalizing o with
  | nil => simp [marked, lastNum]
  | cons x I ih =>
    cases x with
    | data r => simp only [List.cons_append, marked, lastNum, ih]
    | flushMarker s => simp only [List.cons_append, marked, lastNum, ih]
    | checkpoint c => simp only [List.cons_append, marked, lastNum, ih, Bool.and_assoc]

theorem marked_prefix {o : Option Nat} {I J : List (DItem K)} (h : I <+: J) (hj : marked o J = true) :
    marked o I = true := by
  obtain ⟨X, rfl⟩ := h
  rw [marked_append, Bool.and_eq_true] at hj
  exact hj.1

/-- The records of a sync with their markers. -/
theorem marked_recs (cps : Rec K → List Nat) (hc : ∀ r, ∀ c ∈ cps r, c = r.seq) (L : List (Rec K)) (o : Option Nat) :
    marked o (L.flatMap (fun r => DItem.data r :: (cps r).map DItem.checkpoint)) = true := by
  induction L generalizing o with
  | nil => rfl
  | cons r L ih =>
    rw [List.flatMap_cons, marked_append, ih, Bool.and_true]
    simp only [marked]
    have : ∀ cs : List Nat, (∀ c ∈ cs, c = r.seq) → marked (K := K) (some r.seq) (cs.map DItem.checkpoint) = true := by
      intro cs
      induction cs with
      | nil => intro _; rfl
      | cons c cs ih =>
        intro h
        simp only [List.map_cons, marked, Bool.and_eq_true, decide_eq_true_eq]
        exact ⟨by rw [h c (by simp)], ih (fun x hx => h x (by simp [hx]))⟩
    exact this _ (hc r)

theorem marked_flushItems (m : MemTable K) (o : Option Nat) (ho : m.syncedSeqNum ≠ NIL → o = some m.syncedSeqNum) :
    marked o (LogFile.flushItems m NIL) = true := by
  unfold LogFile.flushItems
  simp only []
  rw [marked_append, marked_recs (fun r => m.checkpoints.filter (fun c => c == r.seq)) (fun r c hc => by simpa using (List.mem_filter.1 hc).2),
    Bool.and_true]
  split
  · next h => simp only [marked, Bool.and_true, decide_eq_true_eq]; exact ho (valid_iff.1 h.2.1)
  · rfl

theorem LogFile.Complete.create (n a b : Nat) : (LogFile.create n a b : LogFile K).Complete :=
  ⟨rfl, fun h => absurd rfl h⟩

theorem LogFile.Complete.congr {f f' : LogFile K} (h : f.Complete) (hd : f'.disk = f.disk)
    (hs : f'.mem.syncedSeqNum = f.mem.syncedSeqNum) (hb : f'.mem.bySeq = f.mem.bySeq) : f'.Complete := by
  unfold LogFile.Complete
  rw [hd, hs, hb]; exact h

/-- The last record on disk has the synced number. -/
theorem LogFile.Complete.last {f : LogFile K} (h : f.Complete) (hi : Increasing f.mem.bySeq) (hs : f.mem.syncedSeqNum ≠ NIL) :
    lastNum none f.disk = some f.mem.syncedSeqNum := by
  obtain ⟨h1, r, hr, e⟩ := h.2 hs
  have hr' : r ∈ dataOf f.disk := by rw [h1, List.mem_filter]; exact ⟨hr, by simp [e]⟩
  rw [lastNum_eq]
  obtain ⟨L, x, hx⟩ := List.eq_nil_or_concat (dataOf f.disk) |>.resolve_left (by intro h0; rw [h0] at hr'; cases hr')
  rw [List.concat_eq_append] at hx
  rw [hx]
  simp only [List.getLast?_append, List.getLast?_singleton, Option.some_or]
  congr 1
  have hxm : x ∈ dataOf f.disk := by rw [hx]; simp
  have hxl : x.seq ≤ f.mem.syncedSeqNum := by
    rw [h1, List.mem_filter] at hxm; simpa using hxm.2
  have hI : Increasing (dataOf f.disk) := by rw [h1]; exact inc_cutAt _ hi
  rw [hx] at hr' hI
  rcases List.mem_append.1 hr' with h2 | h2
  · have := (List.pairwise_append.1 hI).2.2 r h2 x (by simp)
    omega
  · rw [← List.mem_singleton.1 h2]; exact e

theorem LogFile.Complete.put {f : LogFile K} {m' : MemTable K} {r : Rec K} {s : Nat} (h : f.Complete) (w : f.mem.WF)
    (hp : MemTable.PutOk f.mem m' r s) (hgt : f.mem.maxSeqNum = NIL ∨ f.mem.maxSeqNum < s) :
    ({ f with mem := m' } : LogFile K).Complete := by
  refine ⟨h.1, ?_⟩
  intro hs
  have hs' : f.mem.syncedSeqNum ≠ NIL := by rw [← hp.synced]; exact hs
  obtain ⟨h1, x, hx, e⟩ := h.2 hs'
  have hlt : f.mem.syncedSeqNum < s := by
    rcases w.synced with h2 | h2
    · exact absurd h2 hs'
    · rcases hgt with h3 | h3
      · omega
      · omega
  simp only [hp.synced, hp.bySeq]
  refine ⟨?_, x, by simp [hx], e⟩
  rw [List.filter_append, h1]
  have : [MemTable.accepted r s].filter (fun r => decide (r.seq ≤ f.mem.syncedSeqNum)) = [] := by
    rw [List.filter_eq_nil_iff]
    intro y hy
    rw [List.mem_singleton] at hy; subst hy
    have : ¬ (MemTable.accepted r s).seq ≤ f.mem.syncedSeqNum := by show ¬ s ≤ _; omega
    simp [this]
  rw [this, List.append_nil]

/-- The highest number of the file is that of a record, or the file is empty. -/
theorem LogFile.Complete.sync {f : LogFile K} (h : f.Complete) (st : StoreOk f) (w : f.mem.WF) (top : f.Top) (lnTo : Nat) :
    (LogMgr.syncFile 0 lnTo f).1.Complete := by
  obtain ⟨r1, r2, -⟩ := syncFile_rel w lnTo
  have hd := flushMemTable_disk st.torn st.integ
  simp only [] at hd
  have hdisk : (LogMgr.syncFile 0 lnTo f).1.disk = (f.flushMemTable NIL).1.disk := by
    unfold LogMgr.syncFile
    simp only [ne_eq, not_true, if_false]
    have h1 : ∀ g : LogFile K, g.maybeClose.disk = g.disk := by intro g; unfold LogFile.maybeClose; split <;> rfl
    have h2 : ∀ (g : LogFile K) (n : Nat), (g.setSyncedSeqNum n).disk = g.disk := by
      intro g n; rw [setSynced_eq]; split <;> rfl
    have h3 := (h2 (f.flushMemTable NIL).1.maybeClose (f.flushMemTable NIL).2).trans (h1 _)
    generalize ((f.flushMemTable NIL).1.maybeClose).setSyncedSeqNum (f.flushMemTable NIL).2 = g at h3
    split <;> exact h3
  generalize (LogMgr.syncFile 0 lnTo f).1 = f' at r1 r2 hdisk
  rcases hd.2.2 with ⟨e1, e2, -⟩ | ⟨e1, e2⟩ | ⟨e1, e2, -⟩
  · refine h.congr (hdisk.trans e1) ?_ r1.bySeq
    rcases r1.synced with h3 | ⟨h3, h4⟩
    · exact h3
    · rw [h4, isSynced_marks w e2 h3]
  · have hm : f.mem.maxSeqNum = NIL := by
      by_contra hm
      exact st.min hm e1
    have hsy : f'.mem.syncedSeqNum = f.mem.syncedSeqNum := by
      rcases r1.synced with h3 | ⟨h3, -⟩
      · exact h3
      · exact absurd hm h3
    refine ⟨?_, ?_⟩
    · rw [hdisk, e2, marked_append, h.1]; rfl
    · rw [hsy, r1.bySeq, hdisk, e2, dataOf_append]
      simpa [dataOf] using h.2
  · by_cases hm : f.mem.maxSeqNum = NIL
    · exact absurd (w.nil hm).2 e1
    · have hlast : f.mem.syncedSeqNum ≠ NIL → lastNum none f.disk = some f.mem.syncedSeqNum := fun hs => h.last w.sorted hs
      refine ⟨?_, ?_⟩
      · rw [hdisk, e2, List.append_assoc, marked_append, h.1, Bool.true_and, marked_append, marked_flushItems _ _ hlast]; rfl
      · intro _
        rw [r2 hm, r1.bySeq, hdisk, e2, List.append_assoc, dataOf_append, dataOf_append, dataOf_flushItems w]
        refine ⟨?_, top hm⟩
        have hall : f.mem.bySeq.filter (fun r => decide (r.seq ≤ f.mem.maxSeqNum)) = f.mem.bySeq :=
          cutAt_all (fun r hr => (w.bound r hr).2.1)
        rw [hall]
        simp only [dataOf, List.append_nil]
        by_cases hs : f.mem.syncedSeqNum = NIL
        · rw [st.nil hs, List.nil_append, List.filter_eq_self]
          intro r hr
          have := (w.bound r hr).1
          simp [hs, this]
        · rw [(h.2 hs).1]
          conv => rhs; rw [split_le w.sorted f.mem.syncedSeqNum]
          congr 1
          apply List.filter_congr
          intro r _
          simp only [ne_eq, hs, not_false_eq_true, if_true]
          by_cases h5 : r.seq ≤ f.mem.syncedSeqNum
          · simp [h5]; omega
          · simp [h5]; omega

/-- Checkpoints that a file has after it was loaded: numbers of its records, ascending. -/
theorem load_marked (items : List (DItem K)) (m : MemTable K) (o : Option Nat) (hi : m.Idx)
    (hinc : Increasing (m.bySeq ++ dataOf items)) (hm : marked o items = true)
    (ho : ∀ c, o = some c → (∃ r ∈ m.bySeq, r.seq = c) ∧ ∀ r ∈ m.bySeq, r.seq ≤ c)
    (h1 : ∀ c ∈ m.checkpoints, ∃ r ∈ m.bySeq, r.seq = c) (h2 : m.checkpoints.Pairwise (· < ·)) :
    (∀ c ∈ (items.foldl MemTable.loadItem m).checkpoints, ∃ r ∈ (items.foldl MemTable.loadItem m).bySeq, r.seq = c) ∧
    (items.foldl MemTable.loadItem m).checkpoints.Pairwise (· < ·) := by
  induction items generalizing m o with
  | nil => exact ⟨h1, h2⟩
  | cons x items ih =>
    rw [List.foldl_cons]
    obtain ⟨g1, g2, -⟩ := loadItems_ok [x] m hi (by
      refine List.Pairwise.sublist ?_ hinc
      refine List.Sublist.append_left ?_ _
      cases x <;> simp [dataOf])
    rw [List.foldl_cons, List.foldl_nil] at g1 g2
    have hinc' : Increasing ((MemTable.loadItem m x).bySeq ++ dataOf items) := by
      rw [g2, List.append_assoc, ← dataOf_append]; exact hinc
    cases x with
    | data r =>
      have hck : (MemTable.loadItem m (.data r)).checkpoints = m.checkpoints := by
        unfold MemTable.loadItem
        have e : (MemTable.addToBySeqIndex m r).checkpoints = m.checkpoints := by
          unfold MemTable.addToBySeqIndex; split <;> rfl
        simp only []
        split
        · exact e
        · unfold MemTable.addToByKeyIndex; exact e
      simp only [marked] at hm
      refine ih _ (some r.seq) g1 hinc' hm ?_ ?_ (by rw [hck]; exact h2)
      · intro c hc
        cases hc
        rw [g2]
        refine ⟨⟨r, by simp [dataOf], rfl⟩, ?_⟩
        intro y hy
        rcases List.mem_append.1 hy with hy | hy
        · exact Nat.le_of_lt ((List.pairwise_append.1 hinc).2.2 y hy r (by simp [dataOf]))
        · simp only [dataOf, List.mem_singleton] at hy; rw [hy]; exact Nat.le_refl _
      · rw [hck, g2]
        intro c hc
        obtain ⟨y, hy, e⟩ := h1 c hc
        exact ⟨y, by simp [hy], e⟩
    | flushMarker s =>
      simp only [marked] at hm
      exact ih m o g1 hinc' hm ho h1 h2
    | checkpoint c =>
      simp only [marked, Bool.and_eq_true, decide_eq_true_eq] at hm
      obtain ⟨o1, o2⟩ := ho c hm.1
      unfold MemTable.loadItem at g1 hinc' ⊢
      simp only [] at g1 hinc' ⊢
      by_cases hc : m.checkpoints.getLast? = some c
      · rw [if_pos hc] at g1 hinc' ⊢
        exact ih m o g1 hinc' hm.2 ho h1 h2
      · rw [if_neg hc] at g1 hinc' ⊢
        refine ih _ o g1 hinc' hm.2 ho ?_ ?_
        · intro a ha
          rcases List.mem_append.1 ha with ha | ha
          · exact h1 a ha
          · rw [List.mem_singleton.1 ha]; exact o1
        · rw [List.pairwise_append]
          refine ⟨h2, List.pairwise_singleton _ _, ?_⟩
          intro a ha b hb
          rw [List.mem_singleton.1 hb]
          obtain ⟨r, hr, hre⟩ := h1 a ha
          refine Nat.lt_of_le_of_ne (by rw [← hre]; exact o2 r hr) ?_
          intro hea
          apply hc
          rw [← hea]
          obtain ⟨l1, l2, hl12⟩ := List.append_of_mem ha
          rw [hl12] at h2 ⊢
          cases l2 with
          | nil => simp
          | cons z l2 =>
            exfalso
            have := (List.pairwise_cons.1 (List.pairwise_append.1 h2).2.1).1 z (by simp)
            obtain ⟨r', hr', hre'⟩ := h1 z (by rw [hl12]; simp)
            have := o2 r' hr'
            omega

end Jungle
