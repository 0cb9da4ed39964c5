/-
  C14: a batch over several DBs.
-/
import Verif.DB.GlobalBatchLemmas
import Verif.Props.KV

set_option linter.unusedSectionVars false

namespace Jungle
open Spec GRun
variable {K : Type} [LinearOrder K] {S : TableSys K}

theorem GRun.step_visible (n : Nat) (s : GRun K S) (h : s.visible = true) : (step n s).visible = true := by
  unfold step
  split <;> try exact h
  · split
    · exact h
    · split <;> exact h
  · simp only []
    split <;> exact h
  · rfl

theorem GRun.after_visible (n : Nat) (s : GRun K S) (h : s.visible = true) (t : Nat) : (after n s t).visible = true := by
  induction t generalizing s with
  | zero => exact h
  | succ t ih => exact ih _ (step_visible n s h)

/-- C14 (partial: no DB is empty, no part of the batch is empty, a reader takes the newest number of
    a log file and the barrier at the same moment): at every moment `t` of the batch, either all DBs
    show the state before it, or all DBs show the state after it; once they show the latter they keep
    to it; and in the end all parts are written.  What is missing is false of the code:
    `C14_empty_db_violation`, `C14_empty_part_violation`, `C14_reader_race_violation`. -/
theorem C14_global_batch_atomic_partial (n : Nat) (dbs : Nat → DB K S) (h b : Nat → List (Rec K))
    (hr : ∀ i, i < n → Reach (dbs i) (h i)) (hne : ∀ i, i < n → h i ≠ [])
    (hfit : ∀ i, i < n → (dbs i).Fits (b i).length) (hopen : ∀ i, i < n → (dbs i).check .write = .ok)
    (hv : ∀ i, i < n → (dbs i).ValidBatch (b i)) :
    (∀ t, (∀ i, i < n → SameReads ((after n (start n dbs b) t).view i) (dbs i)) ∨
      (∀ u i, i < n → SameReads ((after n (start n dbs b) (t + u)).view i) ((dbs i).setRecordBatch (b i)).2)) ∧
    ∃ T, ∀ t, T ≤ t → (after n (start n dbs b) t).status = .ok ∧ (after n (start n dbs b) t).code = [] ∧
      ∀ i, i < n → (after n (start n dbs b) t).view i = ((dbs i).setRecordBatch (b i)).2 := by
  have hp : ∀ i, i < n → GPre (dbs i) (h i) (b i) := fun i hi =>
    ⟨hr i hi, hfit i hi, (hv i hi).1, fun r hr' => by
      rcases (hv i hi).2 with h1 | ⟨h1, -⟩
      · exact Nat.le_of_eq (h1 r hr')
      · exact Nat.le_of_lt (h1 r hr'), hopen i hi⟩
  obtain ⟨s', hrun, hc, hvis, hst, hd⟩ := run_valid hp hne hv
  obtain ⟨hall, T, hT⟩ := hrun.all hc
  refine ⟨fun t => ?_, T, fun t ht => ?_⟩
  · cases hvt : (after n (start n dbs b) t).visible with
    | false =>
      left
      intro i hi
      have h1 := hall t i hi
      rw [hvt] at h1
      have h2 := h1.reads (hp i hi)
      simp only [Bool.false_eq_true, if_false] at h2
      show SameReads (((after n (start n dbs b) t).dbs i).view (after n (start n dbs b) t).visible) (dbs i)
      rw [hvt]; exact h2
    | true =>
      right
      intro u i hi
      have hvu : (after n (start n dbs b) (t + u)).visible = true := by
        rw [after_add]; exact after_visible n _ hvt u
      have h1 := hall (t + u) i hi
      rw [hvu] at h1
      have h2 := h1.reads (hp i hi)
      simp only [if_true] at h2
      show SameReads (((after n (start n dbs b) (t + u)).dbs i).view (after n (start n dbs b) (t + u)).visible) _
      rw [hvu]; exact h2
  · rw [hT t ht]
    refine ⟨hst, hc, fun i hi => ?_⟩
    show ((s'.dbs i).view s'.visible) = _
    rw [hd i hi, GDb.view_same _ _ (by unfold GDb.barrier; simp)]

/-- C14, in terms of the values: at every moment, `get` in all DBs answers from the history before
    the batch, or in all DBs from the history with the batch. -/
theorem C14_global_batch_values_partial (n : Nat) (dbs : Nat → DB K S) (h b : Nat → List (Rec K))
    (hr : ∀ i, i < n → Reach (dbs i) (h i)) (hne : ∀ i, i < n → h i ≠ [])
    (hfit : ∀ i, i < n → (dbs i).Fits (b i).length) (hopen : ∀ i, i < n → (dbs i).check .write = .ok)
    (hv : ∀ i, i < n → (dbs i).ValidBatch (b i)) (t : Nat) :
    (∀ i, i < n → ∀ k, ((after n (start n dbs b) t).view i).get k = answer (h i) k) ∨
    (∀ i, i < n → ∀ k, ((after n (start n dbs b) t).view i).get k =
      answer (h i ++ number ((dbs i).getMaxSeqNum.getD 0) (b i)) k) := by
  have hcl : ∀ i, i < n → (dbs i).closing = false := by
    intro i hi
    have := hopen i hi
    unfold DB.check at this
    cases hc : (dbs i).closing
    · rfl
    · rw [hc] at this; cases this
  rcases (C14_global_batch_atomic_partial n dbs h b hr hne hfit hopen hv).1 t with h1 | h1
  · exact Or.inl fun i hi k => by rw [((h1 i hi).1 k).1, C01_get_returns_latest_write (hr i hi) (hcl i hi)]
  · refine Or.inr fun i hi k => ?_
    have hN : ∀ r ∈ b i, r.seq ≤ NIL := by
      intro r hr'
      rcases (hv i hi).2 with h1 | ⟨h1, -⟩
      · exact Nat.le_of_eq (h1 r hr')
      · exact Nat.le_of_lt (h1 r hr')
    have hp : GPre (dbs i) (h i) (b i) := ⟨hr i hi, hfit i hi, (hv i hi).1, hN, hopen i hi⟩
    obtain ⟨A, B, l', -, -, -, -, -, hset, -⟩ := hp.filled (hv i hi)
    have h2 := C12_batch_visible_after (hr i hi) (hfit i hi) hN hset (by exact hcl i hi) k
    have h3 := ((h1 0 i hi).1 k).1
    rw [Nat.add_zero, hset] at h3
    rw [h3, h2]

/-- C14: if any part of the batch is invalid, all DBs show the state before it at every moment, and in
    the end they are as before. -/
theorem C14_invalid_changes_nothing (n : Nat) (dbs : Nat → DB K S) (h b : Nat → List (Rec K))
    (hr : ∀ i, i < n → Reach (dbs i) (h i))
    (hfit : ∀ i, i < n → (dbs i).Fits (b i).length) (hopen : ∀ i, i < n → (dbs i).check .write = .ok)
    (hbne : ∀ i, i < n → b i ≠ []) (hN : ∀ i, i < n → ∀ r ∈ b i, r.seq ≤ NIL)
    (hv : ∃ i, i < n ∧ ¬ (dbs i).ValidBatch (b i)) :
    (∀ t i, i < n → SameReads ((after n (start n dbs b) t).view i) (dbs i)) ∧
    ∃ T, ∀ t, T ≤ t → (after n (start n dbs b) t).status = .invalidSeqnum ∧ (after n (start n dbs b) t).code = [] ∧
      ∀ i, i < n → (after n (start n dbs b) t).view i = dbs i := by
  have hp : ∀ i, i < n → GPre (dbs i) (h i) (b i) := fun i hi =>
    ⟨hr i hi, hfit i hi, hbne i hi, hN i hi, hopen i hi⟩
  obtain ⟨s', hrun, hc, hvis, hst, hd⟩ := run_invalid hp hv
  obtain ⟨hall, T, hT⟩ := hrun.all hc
  refine ⟨fun t i hi => ?_, T, fun t ht => ?_⟩
  · have hvt : (after n (start n dbs b) t).visible = false := by
      cases hvt : (after n (start n dbs b) t).visible with
      | false => rfl
      | true =>
        obtain ⟨j, hj, hno⟩ := hv
        have h1 := hall t j hj
        rw [hvt] at h1
        exact absurd h1.1 hno
    have h1 := hall t i hi
    rw [hvt] at h1
    have h2 := h1.reads (hp i hi)
    simp only [Bool.false_eq_true, if_false] at h2
    show SameReads (((after n (start n dbs b) t).dbs i).view (after n (start n dbs b) t).visible) (dbs i)
    rw [hvt]; exact h2
  · rw [hT t ht]
    refine ⟨hst, hc, fun i hi => ?_⟩
    show ((s'.dbs i).view s'.visible) = _
    rw [hd i hi, GDb.view_same _ _ (by unfold GDb.barrier; simp)]

end Jungle
