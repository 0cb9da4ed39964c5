/-
  Lookups while a batch is being written (`visibleSeqBarrier`).
-/
import Verif.Log.FlushLemmas2

set_option linter.unusedSectionVars false

namespace Jungle
open Spec MemTable
variable {K : Type} [LinearOrder K]

/-- Last write among the records above a flush mark. -/
theorem lastWrite_above {L : List (Rec K)} (hL : Increasing L) (fl : Nat) (k : K) :
    lastWrite (L.filter (fun r => !(valid fl && decide (r.seq ≤ fl)))) k =
      match lastWrite L k with
      | none => none
      | some r => if fl ≠ NIL ∧ r.seq ≤ fl then none else some r := by
  have hk : keyRecs (L.filter (fun r => !(valid fl && decide (r.seq ≤ fl)))) k =
      (keyRecs L k).filter (fun r => !(valid fl && decide (r.seq ≤ fl))) := by
    simp only [keyRecs, List.filter_filter]
    congr 1; funext r; rw [Bool.and_comm]
  have hinc : (keyRecs L k).Pairwise (fun a b => a.seq < b.seq) :=
    List.Pairwise.sublist List.filter_sublist hL
  rw [lastWrite_eq, lastWrite_eq, hk]
  generalize keyRecs L k = L at hinc
  rcases List.eq_nil_or_concat L with rfl | ⟨L', r, rfl⟩
  · rfl
  · rw [List.concat_eq_append] at hinc ⊢
    rw [List.filter_append, List.getLast?_append]
    simp only [List.getLast?_append, List.getLast?_singleton, Option.some_or]
    by_cases hc : fl ≠ NIL ∧ r.seq ≤ fl
    · rw [if_pos hc]
      have hv := valid_iff.2 hc.1
      have : L'.filter (fun r => !(valid fl && decide (r.seq ≤ fl))) = [] := by
        rw [List.filter_eq_nil_iff]
        intro x hx
        have := (List.pairwise_append.1 hinc).2.2 x hx r (by simp)
        simp [hv]; omega
      rw [this]
      simp [hv, hc.2]
    · rw [if_neg hc]
      have : (!(valid fl && decide (r.seq ≤ fl))) = true := by
        by_cases hv : fl = NIL
        · simp [valid, hv]
        · have : ¬ r.seq ≤ fl := fun h => hc ⟨hv, h⟩
          simp [this]
      rw [List.filter_cons, if_pos this]; rfl

theorem pending_upto (f : LogFile K) (c : Nat) :
    upto f.pending c =
      (upto f.mem.bySeq c).filter
        (fun r => !(valid f.mem.flushedSeqNum && decide (r.seq ≤ f.mem.flushedSeqNum))) := by
  simp only [upto, LogFile.pending, List.filter_filter]
  congr 1; funext r; rw [Bool.and_comm]

theorem Increasing.upto {L : List (Rec K)} (h : Increasing L) (c : Nat) : Increasing (upto L c) :=
  List.Pairwise.sublist List.filter_sublist h

theorem upto_append (L M : List (Rec K)) (c : Nat) : upto (L ++ M) c = upto L c ++ upto M c := by
  simp [MemTable.upto]

/-- A lookup with a barrier sees the pending records up to the barrier. -/
theorem getFrom_barrier (k : K) (b : Nat) (hb : b ≠ 0) (hbN : b < NIL) (fs : List (LogFile K))
    (h : ∀ f ∈ fs, f.mem.WF) :
    LogMgr.getFrom b NIL true false k fs.reverse = lastWrite (upto (fs.flatMap LogFile.pending) b) k := by
  suffices H : ∀ gs : List (LogFile K), (∀ f ∈ gs, f.mem.WF) →
      LogMgr.getFrom b NIL true false k gs =
        lastWrite (upto (gs.reverse.flatMap LogFile.pending) b) k by
    have := H fs.reverse (fun f hf => h f (List.mem_reverse.1 hf))
    rwa [List.reverse_reverse] at this
  intro gs hg
  induction gs with
  | nil => rfl
  | cons f gs ih =>
    have ih := ih (fun g hg' => hg g (List.mem_cons_of_mem _ hg'))
    simp only [LogMgr.getFrom, if_true]
    rw [List.reverse_cons, List.flatMap_append, upto_append, lastWrite_append]
    simp only [List.flatMap_cons, List.flatMap_nil, List.append_nil]
    have hwf := hg f List.mem_cons_self
    rw [if_pos hb, MemTable.get_equal hwf.look, pending_upto, lastWrite_above (Increasing.upto hwf.sorted b), ← ih]
    have hc : (if min f.mem.maxSeqNum b = NIL then f.mem.bySeq
        else upto f.mem.bySeq (min f.mem.maxSeqNum b)) = upto f.mem.bySeq b := by
      rw [if_neg (by omega)]
      unfold MemTable.upto
      apply List.filter_congr
      intro r hr
      have := (hwf.bound r hr).2.1
      simp; omega
    rw [hc]
    cases lastWrite (upto f.mem.bySeq b) k with
    | none => simp
    | some r =>
      by_cases hc : f.mem.flushedSeqNum ≠ NIL ∧ r.seq ≤ f.mem.flushedSeqNum
      · simp only [if_pos hc]; simp [hc.1, hc.2]
      · have : ¬ (¬ f.mem.flushedSeqNum = NIL ∧ r.seq ≤ f.mem.flushedSeqNum) := hc
        simp only [if_neg hc]; simp [this]

theorem LogInv.get_barrier {l : LogMgr K} {A B} (h : LogInv l A B) (b : Nat) (hb : b ≠ 0)
    (hbN : b < NIL) (hm : l.cfg.logSectionOnly = false) (k : K) :
    ({ l with barrier := b } : LogMgr K).get k = match lastWrite (upto B b) k with
      | some r => (.ok, some r)
      | none => (.keyNotFound, none) := by
  have e1 : ({ l with barrier := b } : LogMgr K).getLastFlushedLog = l.minNum := h.getLastFlushedLog_eq
  have e2 : ({ l with barrier := b } : LogMgr K).fileRange l.minNum l.maxNum = l.files := h.fileRange_all
  unfold LogMgr.get
  simp only [e1, e2, hm, Bool.false_eq_true, if_false]
  rw [if_neg (by have := h.minNum_lt; have := h.numN; omega), getFrom_barrier k b hb hbN _ h.wf, ← h.pend]
  cases lastWrite (upto B b) k <;> rfl

/-- A lookup by number with a barrier: nothing above it, everything else as before. -/
theorem LogInv.getSN_barrier {l : LogMgr K} {A B} (h : LogInv l A B) (b : Nat) (hb : b ≠ 0) (n : Nat) :
    (n ≤ b → ({ l with barrier := b } : LogMgr K).getSN n = l.getSN n) ∧
    (n > b → (({ l with barrier := b } : LogMgr K).getSN n).2 = none ∧
      (({ l with barrier := b } : LogMgr K).getSN n).1 ≠ .ok) := by
  have e : ({ l with barrier := b } : LogMgr K).fileBySeq n = l.fileBySeq n := rfl
  unfold LogMgr.getSN
  rw [e, h.bar]
  cases hf : l.fileBySeq n with
  | none => simp
  | some f =>
    simp only []
    constructor
    · intro hn
      have : ¬ n > b := by omega
      simp [this]
    · intro hn
      rw [if_pos (Or.inr ⟨hb, hn⟩)]; exact ⟨rfl, by simp⟩

end Jungle
