/-
  The invariant of the log section: flush.
-/
import Verif.Log.SyncLemmas

namespace Jungle
open Spec
set_option linter.unusedSectionVars false

variable {K : Type} [LinearOrder K]

/-! ### gathering -/

theorem dropWhile_eq_filter {l : List (Rec K)} (h : Increasing l) (n : Nat) :
    l.dropWhile (fun r => decide (r.seq < n)) = l.filter (fun r => decide (n ≤ r.seq)) := by
  induction l with
  | nil => rfl
  | cons a l ih =>
    have h' := List.pairwise_cons.1 h
    by_cases ha : a.seq < n
    · rw [List.dropWhile_cons, if_pos (by simpa using ha), ih h'.2, List.filter_cons,
        if_neg (by simp; omega)]
    · rw [List.dropWhile_cons, if_neg (by simpa using ha)]
      symm; rw [List.filter_eq_self]
      intro x hx
      rcases List.mem_cons.1 hx with rfl | hx
      · simp; omega
      · have := h'.1 x hx; simp; omega

theorem takeWhile_eq_filter {l : List (Rec K)} (h : Increasing l) (n : Nat) :
    l.takeWhile (fun r => decide (r.seq ≤ n)) = l.filter (fun r => decide (r.seq ≤ n)) := by
  induction l with
  | nil => rfl
  | cons a l ih =>
    have h' := List.pairwise_cons.1 h
    by_cases ha : a.seq ≤ n
    · rw [List.takeWhile_cons, if_pos (by simpa using ha), ih h'.2, List.filter_cons,
        if_pos (by simpa using ha)]
    · rw [List.takeWhile_cons, if_neg (by simpa using ha)]
      symm; rw [List.filter_eq_nil_iff]
      intro x hx
      rcases List.mem_cons.1 hx with rfl | hx
      · simp; omega
      · have := h'.1 x hx; simp; omega

/-- What one file contributes to a flush up to `s`. -/
def LogFile.contrib (s : Nat) (ign : Bool) (f : LogFile K) : List (Rec K) :=
  if ign = false ∧ f.mem.syncedSeqNum = NIL then []
  else f.pending.filter (fun r => decide (r.seq ≤ s))

theorem getLogs_eq {f : LogFile K} (w : f.mem.WF) (s : Nat) (ign : Bool) (acc : List (Rec K))
    (hacc1 : f.mem.flushedSeqNum ≠ NIL → acc = [])
    (hacc2 : ∀ r ∈ acc, r.seq < f.mem.minSeqNum) :
    (f.mem.getLogsToFlush s acc ign).2 = acc ++ f.contrib s ign := by
  unfold MemTable.getLogsToFlush LogFile.contrib
  by_cases h1 : ign = false ∧ f.mem.syncedSeqNum = NIL
  · rw [if_pos h1, if_pos h1]; simp
  · rw [if_neg h1, if_neg h1]
    by_cases h2 : f.mem.flushedSeqNum ≠ NIL ∧ s ≤ f.mem.flushedSeqNum
    · rw [if_pos h2]
      have hv := valid_iff.2 h2.1
      have : f.pending.filter (fun r => decide (r.seq ≤ s)) = [] := by
        rw [List.filter_eq_nil_iff]
        intro x hx
        unfold LogFile.pending at hx
        have := (List.mem_filter.1 hx).2
        simp [hv] at this
        simp; omega
      rw [this]; simp
    · rw [if_neg h2]
      simp only []
      have hkept : ∀ ii, (∀ r ∈ acc, r.seq < ii) →
          (acc.reverse.dropWhile (fun r => decide (r.seq ≥ ii))).reverse = acc := by
        intro ii hii
        have : acc.reverse.dropWhile (fun r => decide (r.seq ≥ ii)) = acc.reverse := by
          cases hr : acc.reverse with
          | nil => rfl
          | cons a as =>
            have : a ∈ acc := by rw [← List.mem_reverse, hr]; simp
            rw [List.dropWhile_cons, if_neg]
            have := hii a this; simp; omega
        rw [this, List.reverse_reverse]
      rw [hkept _ (by
        intro r hr
        by_cases hf : f.mem.flushedSeqNum ≠ NIL
        · rw [hacc1 hf] at hr; cases hr
        · rw [if_neg hf]; exact hacc2 r hr)]
      congr 1
      rw [dropWhile_eq_filter w.sorted, takeWhile_eq_filter (List.Pairwise.sublist List.filter_sublist w.sorted)]
      congr 1
      unfold LogFile.pending
      apply List.filter_congr
      intro r hr
      by_cases hf : f.mem.flushedSeqNum = NIL
      · rw [if_neg (by simp [hf])]
        have := (w.bound r hr).1
        simp [valid, hf, this]
      · rw [if_pos hf]
        have hv := valid_iff.2 hf
        by_cases hle : r.seq ≤ f.mem.flushedSeqNum
        · simp [hv, hle]; omega
        · simp [hv, hle]; omega

theorem pending_sub {f : LogFile K} {r : Rec K} (h : r ∈ f.pending) : r ∈ f.mem.bySeq :=
  (List.mem_filter.1 h).1

theorem contrib_sub {f : LogFile K} {s ign} {r : Rec K} (h : r ∈ f.contrib s ign) : r ∈ f.pending := by
  unfold LogFile.contrib at h
  split at h
  · cases h
  · exact (List.mem_filter.1 h).1

theorem gather_eq (L : List (LogFile K)) (hw : ∀ f ∈ L, f.mem.WF) (ho : L.Pairwise Before)
    (s : Nat) (ign : Bool) :
    LogMgr.gather s ign L = L.flatMap (LogFile.contrib s ign) := by
  suffices H : ∀ n, ∀ L : List (LogFile K), L.length = n → (∀ f ∈ L, f.mem.WF) → L.Pairwise Before →
      LogMgr.gather s ign L = L.flatMap (LogFile.contrib s ign) from H _ L rfl hw ho
  intro n
  induction n with
  | zero => intro L hl _ _; rw [List.length_eq_zero_iff.1 hl]; rfl
  | succ n ih =>
    intro L hl hw ho
    rcases List.eq_nil_or_concat L with rfl | ⟨L', f, rfl⟩
    · simp at hl
    · rw [List.concat_eq_append] at hl hw ho ⊢
      have ho' := List.pairwise_append.1 ho
      have ihh := ih L' (by simpa using hl) (fun g hg => hw g (by simp [hg])) ho'.1
      unfold LogMgr.gather at ihh ⊢
      rw [List.foldl_append, ihh, List.flatMap_append]
      simp only [List.foldl_cons, List.foldl_nil, List.flatMap_cons, List.flatMap_nil, List.append_nil]
      have hwf := hw f (by simp)
      apply getLogs_eq hwf
      · intro hfl
        cases L' with
        | nil => rfl
        | cons g L' =>
          exact absurd (ho'.2.2 g (by simp) f (by simp)).flushed hfl
      · intro r hr
        obtain ⟨g, hg, hr⟩ := List.mem_flatMap.1 hr
        have hr := pending_sub (contrib_sub hr)
        have hwg := hw g (by simp [hg])
        have hb := ho'.2.2 g hg f (by simp)
        have hbd := hwg.bound r hr
        have hm : g.mem.maxSeqNum ≠ NIL := fun h => by
          have := (hwg.nil h).1; rw [this] at hr; cases hr
        by_cases hmin : f.mem.minSeqNum = NIL
        · rw [hmin]; exact hbd.2.2.2
        · have := hb.min hm hmin; omega

/-! ### the flush -/

/-- The marks of the last flushed file afterwards. -/
theorem setFlushed_eq {f : LogFile K} (s : Nat) :
    f.setFlushedSeqNum s = if f.mem.syncedSeqNum = NIL then f
      else { f with mem := { f.mem with flushedSeqNum := min s f.mem.syncedSeqNum } } := by
  unfold LogFile.setFlushedSeqNum
  split
  · rfl
  · split
    · rw [Nat.min_eq_right (by omega)]
    · rw [Nat.min_eq_left (by omega)]

theorem setSynced_eq {f : LogFile K} (s : Nat) :
    f.setSyncedSeqNum s = if f.mem.maxSeqNum = NIL then f
      else { f with mem := { f.mem with syncedSeqNum := min s f.mem.maxSeqNum } } := by
  unfold LogFile.setSyncedSeqNum
  split
  · rfl
  · split
    · rw [Nat.min_eq_right (by omega)]
    · rw [Nat.min_eq_left (by omega)]

/-- The effect of a flush up to `s` on the last file it touches. -/
structure FlushRel (s : Nat) (beyond : Bool) (f f' : LogFile K) : Prop where
  num : f'.num = f.num
  start : f'.startSeq = f.startSeq
  immut : f'.immutable = f.immutable
  mstart : f'.mem.startSeqNum = f.mem.startSeqNum
  bySeq : f'.mem.bySeq = f.mem.bySeq
  min : f'.mem.minSeqNum = f.mem.minSeqNum
  max : f'.mem.maxSeqNum = f.mem.maxSeqNum
  wf : f'.mem.WF
  /-- records that leave the pending list were handed to the table -/
  mono : f.mem.flushedSeqNum ≠ NIL → f'.mem.flushedSeqNum ≠ NIL ∧ f.mem.flushedSeqNum ≤ f'.mem.flushedSeqNum
  upto : f'.mem.flushedSeqNum ≠ NIL → (f'.mem.flushedSeqNum = f.mem.flushedSeqNum ∨ f'.mem.flushedSeqNum ≤ s)
  skip : beyond = false → f.mem.syncedSeqNum = NIL → f'.mem.flushedSeqNum = f.mem.flushedSeqNum
  sync : beyond = false → f'.mem.syncedSeqNum = f.mem.syncedSeqNum
  syncB : beyond = true → f.mem.maxSeqNum ≠ NIL → f'.mem.syncedSeqNum ≠ NIL
  val : beyond = false → f.mem.syncedSeqNum ≠ NIL → f'.mem.flushedSeqNum = Nat.min s f.mem.syncedSeqNum
  valB : beyond = true → f.mem.maxSeqNum ≠ NIL → f'.mem.flushedSeqNum = Nat.min s f.mem.maxSeqNum

theorem flushRel_of {f : LogFile K} (w : f.mem.WF) {s : Nat} (beyond : Bool)
    (hs : f.mem.flushedSeqNum ≠ NIL → f.mem.flushedSeqNum ≤ s) :
    FlushRel s beyond f ((if beyond then f.setSyncedSeqNum s else f).setFlushedSeqNum s) := by
  have hle := w.le_nil
  cases beyond with
  | false =>
    simp only [Bool.false_eq_true, if_false]
    rw [setFlushed_eq]
    by_cases hn : f.mem.syncedSeqNum = NIL
    · rw [if_pos hn]
      exact ⟨rfl, rfl, rfl, rfl, rfl, rfl, rfl, w, fun h => ⟨h, Nat.le_refl _⟩, fun _ => Or.inl rfl,
        fun _ _ => rfl, fun _ => rfl, fun h => (by cases h), fun _ h => absurd hn h, fun h => by cases h⟩
    · rw [if_neg hn]
      have hsy : f.mem.syncedSeqNum ≤ f.mem.maxSeqNum ∧ f.mem.maxSeqNum < NIL := by
        rcases w.synced with h | h
        · exact absurd h hn
        · exact h
      refine ⟨rfl, rfl, rfl, rfl, rfl, rfl, rfl, ?_, ?_, ?_, fun _ h => absurd h hn, fun _ => rfl, fun h => (by cases h),
        fun _ _ => rfl, fun h => by cases h⟩
      · exact ⟨w.sorted, w.keys, w.idx, w.alloc, w.nil, w.le_nil, w.bound, w.minle, w.synced,
          Or.inr ⟨by simp only []; omega, hsy.2⟩, Or.inr (Or.inr (by simp only []; omega))⟩
      · intro hf
        have h1 := hs hf
        simp only []
        rcases w.order with h | h | h
        · exact absurd h hn
        · exact absurd h hf
        · omega
      · intro _; right; simp only []; omega
  | true =>
    simp only [if_true]
    rw [setSynced_eq]
    by_cases hm : f.mem.maxSeqNum = NIL
    · rw [if_pos hm]
      have hsN : f.mem.syncedSeqNum = NIL := by
        rcases w.synced with h | h
        · exact h
        · omega
      rw [setFlushed_eq, if_pos hsN]
      exact ⟨rfl, rfl, rfl, rfl, rfl, rfl, rfl, w, fun h => ⟨h, Nat.le_refl _⟩, fun _ => Or.inl rfl,
        fun h => (by cases h), fun h => (by cases h), fun _ h => absurd hm h, fun h => (by cases h),
        fun _ h => absurd hm h⟩
    · rw [if_neg hm, setFlushed_eq]
      simp only []
      rw [if_neg (by omega)]
      refine ⟨rfl, rfl, rfl, rfl, rfl, rfl, rfl, ?_, ?_, ?_, fun h => (by cases h), fun h => (by cases h),
        fun _ _ => by simp only []; omega, fun h => (by cases h), fun _ _ => ?_⟩
      · exact ⟨w.sorted, w.keys, w.idx, w.alloc, w.nil, w.le_nil, w.bound, w.minle,
          Or.inr ⟨by simp only []; omega, by simp only []; omega⟩,
          Or.inr ⟨by simp only []; omega, by simp only []; omega⟩, Or.inr (Or.inr (by simp only []; omega))⟩
      · intro hf
        have h1 := hs hf
        simp only []
        rcases w.flushed with h | h
        · exact absurd h hf
        · omega
      · intro _; right; simp only []; omega
      · show min s (min s f.mem.maxSeqNum) = min s f.mem.maxSeqNum
        omega

theorem split_le {L : List (Rec K)} (h : Increasing L) (n : Nat) :
    L = L.filter (fun r => decide (r.seq ≤ n)) ++ L.filter (fun r => !decide (r.seq ≤ n)) := by
  induction L with
  | nil => rfl
  | cons a L ih =>
    have h' := List.pairwise_cons.1 h
    by_cases ha : a.seq ≤ n
    · simp only [List.filter_cons, ha, decide_true, if_true, Bool.not_true, Bool.false_eq_true,
        if_false, List.cons_append]
      rw [← ih h'.2]
    · have : L.filter (fun r => decide (r.seq ≤ n)) = [] := by
        rw [List.filter_eq_nil_iff]
        intro x hx; have := h'.1 x hx; simp; omega
      have h2 : L.filter (fun r => !decide (r.seq ≤ n)) = L := by
        rw [List.filter_eq_self]
        intro x hx; have := h'.1 x hx; simp; omega
      simp only [List.filter_cons, ha, decide_false, Bool.false_eq_true, if_false, Bool.not_false,
        if_true, this, h2, List.nil_append]

/-- The records that a flush moves below the flush mark of the file. -/
def LogFile.moved (f f' : LogFile K) : List (Rec K) :=
  f.pending.filter (fun r => valid f'.mem.flushedSeqNum && decide (r.seq ≤ f'.mem.flushedSeqNum))

theorem pending_split {s b} {f f' : LogFile K} (w : f.mem.WF) (h : FlushRel s b f f') :
    f.pending = f.moved f' ++ f'.pending := by
  have hp : f'.pending = f.pending.filter
      (fun r => !(valid f'.mem.flushedSeqNum && decide (r.seq ≤ f'.mem.flushedSeqNum))) := by
    unfold LogFile.pending
    rw [h.bySeq, List.filter_filter]
    apply List.filter_congr
    intro r hr
    by_cases hf : f.mem.flushedSeqNum = NIL
    · simp [hf, valid]
    · have := h.mono hf
      have hv1 := valid_iff.2 hf
      have hv2 := valid_iff.2 this.1
      by_cases hle : r.seq ≤ f'.mem.flushedSeqNum
      · simp [hv2, hle]
      · have : ¬ r.seq ≤ f.mem.flushedSeqNum := by omega
        simp [hle, this]
  rw [hp]
  unfold LogFile.moved
  by_cases hf : f'.mem.flushedSeqNum = NIL
  · have h1 : ∀ L : List (Rec K), L.filter (fun _ => false) = [] := by
      intro L; rw [List.filter_eq_nil_iff]; simp
    have h2 : ∀ L : List (Rec K), L.filter (fun _ => true) = L := by
      intro L; rw [List.filter_eq_self]; simp
    simp [hf, valid, h1, h2]
  · have hv := valid_iff.2 hf
    simp only [hv, Bool.true_and]
    exact split_le (List.Pairwise.sublist List.filter_sublist w.sorted) _

theorem flatMap_congr_mem {α β : Type} {f g : α → List β} {L : List α} (h : ∀ a ∈ L, f a = g a) :
    L.flatMap f = L.flatMap g := by
  induction L with
  | nil => rfl
  | cons a L ih =>
    rw [List.flatMap_cons, List.flatMap_cons, h a (by simp), ih (fun b hb => h b (by simp [hb]))]

theorem LogInv.flush_core {l : LogMgr K} {A B} (h : LogInv l A B) {P Q : List (LogFile K)}
    {g g' : LogFile K} (hf : l.files = P ++ g :: Q) {s : Nat} {beyond : Bool}
    (hsync : beyond = true ∨ (l.lastSynced ≠ NIL ∧ g.num ≤ l.lastSynced))
    (hcov : ∀ f ∈ P, f.mem.maxSeqNum ≤ s)
    (hrel : FlushRel s beyond g g') :
    let ls := if beyond = true ∧ g.num > l.lastSynced then g.num else l.lastSynced
    let D := P.flatMap LogFile.pending ++ g.moved g'
    let B' := g'.pending ++ Q.flatMap LogFile.pending
    LogInv { l with files := g' :: Q, lastFlushed := g.num, lastSynced := ls } (A ++ D) B' ∧
    B = D ++ B' ∧
    ∀ k, lastWrite B' k = none →
      lastWrite (LogMgr.gather s beyond (P ++ [g])) k = lastWrite D k := by
  have hw : ∀ f ∈ P ++ g :: Q, f.mem.WF := by rw [← hf]; exact h.wf
  have ho := h.order
  rw [hf] at ho
  have ho1 := List.pairwise_append.1 ho
  have ho2 := List.pairwise_cons.1 ho1.2.1
  have hgw := hw g (by simp)
  have hgmem : g ∈ l.files := by rw [hf]; simp
  have hBsplit : B = (P.flatMap LogFile.pending ++ g.moved g') ++ (g'.pending ++ Q.flatMap LogFile.pending) := by
    rw [h.pend, hf, List.flatMap_append, List.flatMap_cons, pending_split hgw hrel]
    simp only [List.append_assoc]
  have hnumN := h.numN
  have hgr := h.num_range hgmem
  refine ⟨?_, hBsplit, ?_⟩
  · refine ⟨h.rw, h.noOv, h.bar, by simp, ?_, h.numN, ?_, ?_, h.entries, ?_, ?_, ?_, Or.inr hrel.num.symm, ?_, ?_, ?_, ?_, ?_, ?_⟩
    · obtain ⟨a, h1, h2⟩ := h.nums
      refine ⟨a + P.length, ?_, ?_⟩
      · rw [hf] at h1
        have e : (P ++ g :: Q).length = P.length + (g' :: Q).length := by simp
        rw [e, ← List.range'_append_1, List.map_append] at h1
        have := List.append_inj_right h1 (by simp)
        rw [← this]; simp [hrel.num]
      · rw [hf] at h2; simp at h2 ⊢; omega
    · intro f hf'
      rcases List.mem_cons.1 hf' with rfl | hf'
      · exact hrel.wf
      · exact hw f (by simp [hf'])
    · intro f hf'
      rcases List.mem_cons.1 hf' with rfl | hf'
      · have := h.own g hgmem
        exact ⟨by rw [hrel.bySeq, hrel.start]; exact this.recs, by rw [hrel.max, hrel.start]; exact this.max,
          by rw [hrel.max, hrel.start]; exact this.nil⟩
      · exact h.own f (by rw [hf]; simp [hf'])
    · intro f hf' hm
      rcases List.mem_cons.1 hf' with rfl | hf'
      · rw [hrel.immut]; rw [hrel.max] at hm; exact h.emptyW g hgmem hm
      · exact h.emptyW f (by rw [hf]; simp [hf']) hm
    · intro f hf' hm
      rcases List.mem_cons.1 hf' with rfl | hf'
      · rw [hrel.mstart]; rw [hrel.max] at hm; exact h.emptyS g hgmem hm
      · exact h.emptyS f (by rw [hf]; simp [hf']) hm
    · refine List.pairwise_cons.2 ⟨?_, ho2.2⟩
      intro q hq
      have hb := ho2.1 q hq
      exact ⟨by rw [hrel.num]; exact hb.num, by rw [hrel.max]; exact hb.max, by rw [hrel.max]; exact hb.recs,
        by rw [hrel.max]; exact hb.min, by rw [hrel.max]; exact hb.synced, by rw [hrel.max]; exact hb.start,
        hb.flushed, by rw [hrel.start]; exact hb.startLe, by rw [hrel.max]; exact hb.ne⟩
    · show _ ∨ (g'.num ≤ _ ∧ _)
      rw [hrel.num]
      simp only []
      by_cases hc : beyond = true ∧ g.num > l.lastSynced
      · rw [if_pos hc]; exact Or.inr ⟨Nat.le_refl _, hgr.2⟩
      · rw [if_neg hc]
        rcases h.lastS with hl | hl
        · exact Or.inl hl
        · right
          refine ⟨?_, hl.2⟩
          rcases hsync with hb | hb
          · by_contra hx
            exact hc ⟨hb, by omega⟩
          · exact hb.2
    · simp only []
      intro hls f hf' hlt hb
      have hmn : ∀ x, ({ l with files := g' :: Q, lastFlushed := g.num, lastSynced := x } : LogMgr K).minNum
          = g.num := fun _ => hrel.num
      rw [hmn] at hlt
      by_cases hc : beyond = true ∧ g.num > l.lastSynced
      · exfalso
        rw [if_pos hc] at hlt
        rcases List.mem_cons.1 hf' with rfl | hf'
        · rw [hrel.num] at hlt; omega
        · have := (ho2.1 f hf').num; omega
      · rw [if_neg hc] at hlt hls
        rcases List.mem_cons.1 hf' with rfl | hf'
        · rw [hrel.max] at hb
          rw [hrel.num] at hlt
          have hold := h.syncedLe hls g hgmem (by omega) hb
          cases hby : beyond with
          | false => rw [hrel.sync hby]; exact hold
          | true => exact hrel.syncB hby hb
        · exact h.syncedLe hls f (by rw [hf]; simp [hf']) (by omega) hb
    · intro f fs hfs
      simp only [List.cons.injEq] at hfs
      obtain ⟨rfl, -⟩ := hfs
      have hP : ∀ p ∈ P, g'.mem.flushedSeqNum ≠ NIL ∧ p.mem.maxSeqNum ≤ g'.mem.flushedSeqNum := by
        intro p hp
        have hb := ho1.2.2 p hp g (by simp)
        have h1 := hb.max hb.ne
        have h2 := hcov p hp
        have h3 := hgw.le_nil
        have hpr := h.num_range (f := p) (by rw [hf]; simp [hp])
        have hpn := hb.num
        cases hby : beyond with
        | true =>
          have e : g'.mem.flushedSeqNum = min s g.mem.maxSeqNum := hrel.valB hby h1.1
          rw [e]; omega
        | false =>
          rcases hsync with hsb | ⟨hs1, hs2⟩
          · rw [hby] at hsb; cases hsb
          · have hsy := h.syncedLe hs1 g hgmem (by omega) h1.1
            have h4 := hb.synced hb.ne hsy
            have h5 : g.mem.syncedSeqNum ≤ g.mem.maxSeqNum ∧ g.mem.maxSeqNum < NIL := by
              rcases hgw.synced with h | h
              · exact absurd h hsy
              · exact h
            have e : g'.mem.flushedSeqNum = min s g.mem.syncedSeqNum := hrel.val hby hsy
            rw [e]; omega
      intro r hr
      rcases List.mem_append.1 hr with hr | hr
      · cases hPc : P with
        | nil =>
          have := h.mark g Q (by rw [hf, hPc]; rfl) r hr
          have h2 := hrel.mono this.1
          exact ⟨h2.1, by omega⟩
        | cons p P' =>
          have h1 := h.mark p (P' ++ g :: Q) (by rw [hf, hPc]; rfl) r hr
          have h2 := hP p (by rw [hPc]; simp)
          have h3 := (hw p (by rw [hPc]; simp)).flushed
          refine ⟨h2.1, ?_⟩
          rcases h3 with h3 | h3
          · exact absurd h3 h1.1
          · omega
      · rcases List.mem_append.1 hr with hr | hr
        · obtain ⟨p, hp, hr⟩ := List.mem_flatMap.1 hr
          have h2 := hP p hp
          have h3 := (hw p (by simp [hp])).bound r (pending_sub hr)
          exact ⟨h2.1, by omega⟩
        · have := (List.mem_filter.1 hr).2
          simp only [Bool.and_eq_true, decide_eq_true_eq] at this
          exact ⟨valid_iff.1 this.1, this.2⟩
    · rw [List.flatMap_cons]
    · rw [List.append_assoc, ← hBsplit]; exact h.inc
    · intro fs f hfs
      simp only [] at hfs
      rw [List.append_assoc, ← hBsplit]
      rcases List.eq_nil_or_concat Q with rfl | ⟨Q', q, rfl⟩
      · have : fs = [] ∧ f = g' := by
          cases fs with
          | nil => simpa using hfs.symm
          | cons a as => simp at hfs
        obtain ⟨rfl, rfl⟩ := this
        have ht := h.top P g (by rw [hf])
        rw [hrel.max]
        exact ⟨fun hm => ⟨(ht.1 hm).1, rfl⟩, ht.2⟩
      · rw [List.concat_eq_append] at hfs hf
        rw [← List.cons_append] at hfs
        have h1 := List.append_inj' hfs (by simp)
        have : q = f := by simpa using h1.2
        subst this
        have ht := h.top (P ++ g :: Q') q (by rw [hf]; simp)
        refine ⟨fun hm => absurd (ht.1 hm).2 (by simp), ht.2⟩
  · intro k hk
    rw [gather_eq (P ++ [g]) (fun f hf' => hw f (by
        simp only [List.mem_append, List.mem_singleton] at hf'
        rcases hf' with h | h <;> simp [h]))
      (List.Pairwise.sublist (List.Sublist.append_left (by simp) P) ho)]
    rw [List.flatMap_append]
    have hP : P.flatMap (LogFile.contrib s beyond) = P.flatMap LogFile.pending := by
      have : ∀ f ∈ P, f.contrib s beyond = f.pending := by
        intro f hfP
        have hwf := hw f (by simp [hfP])
        unfold LogFile.contrib
        split
        · next hc =>
          rcases hsync with hb | hb
          · rw [hb] at hc; simp at hc
          · have hlt := (ho1.2.2 f hfP g (by simp)).num
            by_cases he : f.mem.bySeq = []
            · unfold LogFile.pending; rw [he]; rfl
            · exact absurd hc.2 (h.syncedLe hb.1 f (by rw [hf]; simp [hfP]) (by omega)
                (fun hm => he (hwf.nil hm).1))
        · rw [List.filter_eq_self]
          intro r hr
          have h1 := hwf.bound r (pending_sub hr)
          have h2 := hcov f hfP
          simp; omega
      exact flatMap_congr_mem this
    rw [hP, lastWrite_append, lastWrite_append]
    simp only [List.flatMap_cons, List.flatMap_nil, List.append_nil]
    congr 1
    -- the records of `k` in `g` are all below the new mark
    have hno : keyRecs g'.pending k = [] := by
      rw [lastWrite_append, Option.or_eq_none_iff] at hk
      have := hk.2
      rwa [lastWrite_eq, List.getLast?_eq_none_iff] at this
    rw [lastWrite_eq, lastWrite_eq]
    congr 1
    have hg : keyRecs g.pending k = keyRecs (g.moved g') k := by
      rw [pending_split hgw hrel, keyRecs_append, hno, List.append_nil]
    unfold LogFile.contrib
    split
    · next hc =>
      -- nothing was taken and the mark did not move
      have hfl := hrel.skip hc.1 hc.2
      rw [← hg]
      have hpp : g'.pending = g.pending := by
        unfold LogFile.pending; rw [hrel.bySeq, hfl]
      rw [← hpp, hno]; rfl
    · rw [← hg]
      unfold keyRecs
      rw [List.filter_filter]
      apply List.filter_congr
      intro r hr
      by_cases hkr : (!r.isCmd && decide (r.key = k)) = true
      · have hmv : r ∈ g.moved g' := by
          have : r ∈ keyRecs g.pending k := List.mem_filter.2 ⟨hr, hkr⟩
          rw [hg] at this
          exact (List.mem_filter.1 this).1
        unfold LogFile.moved at hmv
        have h1 := (List.mem_filter.1 hmv).2
        simp only [Bool.and_eq_true, decide_eq_true_eq] at h1
        have hv := valid_iff.1 h1.1
        have : r.seq ≤ s := by
          rcases hrel.upto hv with h2 | h2
          · unfold LogFile.pending at hr
            have := (List.mem_filter.1 hr).2
            rw [← h2] at this
            simp [h1.1, h1.2] at this
          · omega
        rw [hkr]; simp [this]
      · simp only [Bool.not_eq_true] at hkr
        rw [hkr]; simp

end Jungle
