/-
  The invariant of the log section: batches, sync, checkpoint and flush.
-/
import Verif.Log.MgrLemmas

namespace Jungle
open Spec
set_option linter.unusedSectionVars false

variable {K : Type} [LinearOrder K]

/-! ### batches -/

/-- The numbers a batch may carry: none at all (and enough numbers are left), or increasing
    ones above the maximum. -/
def LogMgr.batchOk (l : LogMgr K) (batch : List (Rec K)) : Prop :=
  ((∀ r ∈ batch, r.seq = NIL) ∧ l.nextSeq + batch.length ≤ NIL) ∨
  ((l.getMaxSeqNum.getD 0 :: batch.map (·.seq)).Pairwise (· < ·) ∧ ∀ r ∈ batch, r.seq < NIL)

/-- Outcome of an accepted batch: the records are numbered one after the other. -/
structure BatchOk (l : LogMgr K) (batch : List (Rec K)) (A B : List (Rec K)) (l' : LogMgr K) :
    Prop where
  inv : LogInv l' A (B ++ number (l.getMaxSeqNum.getD 0) batch)
  inc : ((l.getMaxSeqNum.getD 0) :: (number (l.getMaxSeqNum.getD 0) batch).map (·.seq)).Pairwise (· < ·)
  lt : ∀ r ∈ number (l.getMaxSeqNum.getD 0) batch, r.seq < NIL
  max : batch ≠ [] → l'.getMaxSeqNum = ((number (l.getMaxSeqNum.getD 0) batch).getLast?).map (·.seq)
  cfg : l'.cfg = l.cfg
  num : l'.maxNum = l.maxNum
  steps : PutSteps l l'

theorem accepted_eq_stamp (r : Rec K) (s : Nat) : MemTable.accepted r s = stamp r s := by
  unfold MemTable.accepted MemTable.localRec stamp
  cases h : r.isDel <;> simp

theorem LogInv.setMultiInternal {l : LogMgr K} {A B} (h : LogInv l A B) (batch : List (Rec K))
    (hb : l.batchOk batch) :
    ∃ l', l.setMultiInternal batch = (.ok, l') ∧ BatchOk l batch A B l' := by
  induction batch generalizing l B with
  | nil =>
    refine ⟨l, rfl, ⟨by simpa [number] using h, List.pairwise_singleton _ _, by simp [number],
      fun h => absurd rfl h, rfl, rfl, .refl⟩⟩
  | cons r rs ih =>
    obtain ⟨fs, f, hf⟩ := h.split_last
    have hfi : l.file? l.maxNum = some f := by
      rw [← h.last_num hf]; exact h.file?_mem (by rw [hf]; simp)
    have hrs : l.seqOk r.seq := by
      rcases hb with hb | hb
      · refine Or.inl ⟨hb.1 r List.mem_cons_self, ?_⟩
        have := hb.2; simp only [List.length_cons] at this; omega
      · right
        have h1 := (List.pairwise_cons.1 hb.1).1 r.seq (by simp)
        refine ⟨by omega, hb.2 r List.mem_cons_self, ?_⟩
        intro m hm; rw [hm] at h1; exact h1
    obtain ⟨s, m', he, hok⟩ := h.putFile hf r hrs
    have hset := h.setFile_last (f' := { f with mem := m' }) hf rfl
    have hnum : l.maxNum = ({ l with files := fs ++ [{ f with mem := m' }] } : LogMgr K).maxNum := rfl
    generalize hl2 : ({ l with files := fs ++ [{ f with mem := m' }] } : LogMgr K) = l2 at hok hset hnum
    have hs1 : l.getMaxSeqNum.getD 0 < s := by
      cases hm : l.getMaxSeqNum with
      | none => exact hok.pos
      | some m => exact hok.above m hm
    have hse : s = if r.seq = NIL then l.getMaxSeqNum.getD 0 + 1 else r.seq := by
      split
      · next e => exact hok.number e
      · next e => exact hok.explicit e
    have hb2 : l2.batchOk rs := by
      rcases hb with hb | hb
      · refine Or.inl ⟨fun x hx => hb.1 x (List.mem_cons_of_mem _ hx), ?_⟩
        have h1 := hok.number (hb.1 r List.mem_cons_self)
        rw [← h.nextSeq_eq] at h1
        have := hb.2; simp only [List.length_cons] at this
        rw [hok.next]; omega
      · right
        have hne : r.seq ≠ NIL := Nat.ne_of_lt (hb.2 r List.mem_cons_self)
        refine ⟨?_, fun x hx => hb.2 x (List.mem_cons_of_mem _ hx)⟩
        rw [hok.max, hok.explicit hne]
        exact (List.pairwise_cons.1 hb.1).2
    obtain ⟨l', he2, hok2⟩ := ih hok.inv hb2
    have hstep : l.setMultiInternal (r :: rs) = (.ok, l') := by
      rw [LogMgr.setMultiInternal, hfi]
      simp only [LogFile.setSN_eq h.noOv, he]
      rw [hset, if_neg (by simp)]
      exact he2
    have hn : number (l.getMaxSeqNum.getD 0) (r :: rs) = stamp r s :: number s rs := by
      rw [number]; simp only [← hse]
    have hm2 : l2.getMaxSeqNum.getD 0 = s := by rw [hok.max]; rfl
    refine ⟨l', hstep, ⟨?_, ?_, ?_, ?_, ?_, ?_, .step hok.step hnum.symm ⟨_, _, hok.inv⟩ hok2.steps⟩⟩
    · have := hok2.inv
      rw [hm2, accepted_eq_stamp] at this
      rw [hn]; simpa [List.append_assoc] using this
    · have h1 := hok2.inc
      rw [hm2] at h1
      rw [hn, List.map_cons]
      have hst : (stamp r s).seq = s := rfl
      rw [hst]
      refine List.pairwise_cons.2 ⟨?_, h1⟩
      intro x hx
      rcases List.mem_cons.1 hx with rfl | hx
      · exact hs1
      · exact Nat.lt_trans hs1 ((List.pairwise_cons.1 h1).1 x hx)
    · intro x hx
      rw [hn] at hx
      rcases List.mem_cons.1 hx with rfl | hx
      · exact hok.lt
      · exact hok2.lt x (by rw [hm2]; exact hx)
    · intro _
      rw [hn]
      cases rs with
      | nil =>
        rw [LogMgr.setMultiInternal] at he2
        cases he2
        simpa [number, stamp] using hok.max
      | cons x xs =>
        rw [hok2.max (by simp), hm2]
        simp [number]
    · rw [hok2.cfg, hok.cfg]
    · rw [hok2.num, ← hnum]

theorem setMultiInternal_barrier (l : LogMgr K) (b : Nat) (batch : List (Rec K)) :
    ({ l with barrier := b } : LogMgr K).setMultiInternal batch =
      ((l.setMultiInternal batch).1, { (l.setMultiInternal batch).2 with barrier := b }) := by
  induction batch generalizing l with
  | nil => rfl
  | cons r rs ih =>
    have e : ({ l with barrier := b } : LogMgr K).file? l.maxNum = l.file? l.maxNum := rfl
    rw [LogMgr.setMultiInternal, LogMgr.setMultiInternal]
    simp only [e]
    cases l.file? l.maxNum with
    | none => rfl
    | some f =>
      simp only []
      split
      · rfl
      · exact ih (l.setFile (f.setSN l.cfg r).2)

theorem setMultiInternal_keeps (l : LogMgr K) (batch : List (Rec K)) :
    (l.setMultiInternal batch).2.barrier = l.barrier := by
  induction batch generalizing l with
  | nil => rfl
  | cons r rs ih =>
    rw [LogMgr.setMultiInternal]
    cases l.file? l.maxNum with
    | none => rfl
    | some f =>
      simp only []
      split
      · rfl
      · rw [ih]; rfl

theorem LogInv.getMax_barrier {l : LogMgr K} {A B} (h : LogInv l A B) :
    (({ l with barrier := l.getMaxSeqNum.getD 0 } : LogMgr K).getMaxSeqNum).getD 0 = l.getMaxSeqNum.getD 0 := by
  by_cases hz : l.getMaxSeqNum.getD 0 = 0
  · rw [hz]
    have : ({ l with barrier := 0 } : LogMgr K) = l := by rw [← h.bar]
    rw [this, hz]
  · generalize l.getMaxSeqNum.getD 0 = b at hz ⊢
    unfold LogMgr.getMaxSeqNum
    rw [if_pos hz]; rfl

/-- What `checkBatchValidity` decides. -/
theorem checkGo_ok (prev : Nat) (batch : List (Rec K)) :
    LogMgr.checkBatchValidity.go prev batch =
      if (prev :: batch.map (·.seq)).Pairwise (· < ·) ∧ (∀ r ∈ batch, r.seq ≠ NIL) then .ok
      else .invalidSeqnum := by
  induction batch generalizing prev with
  | nil => simp [LogMgr.checkBatchValidity.go]
  | cons r rs ih =>
    rw [LogMgr.checkBatchValidity.go]
    by_cases h1 : r.seq = NIL
    · rw [if_pos (by simp [valid, h1]), if_neg]
      rintro ⟨-, h2⟩; exact h2 r List.mem_cons_self h1
    · by_cases h2 : r.seq ≤ prev
      · rw [if_pos (by simp [h2]), if_neg]
        rintro ⟨h3, -⟩
        have := (List.pairwise_cons.1 h3).1 r.seq (by simp)
        omega
      · have hv := valid_iff.2 h1
        rw [if_neg (by simp [hv, h2]), ih]
        congr 1
        apply propext
        constructor
        · rintro ⟨h3, h4⟩
          refine ⟨List.pairwise_cons.2 ⟨?_, by simpa using h3⟩, ?_⟩
          · intro x hx
            simp only [List.map_cons, List.mem_cons] at hx
            rcases hx with rfl | hx
            · omega
            · have := (List.pairwise_cons.1 h3).1 x hx; omega
          · intro x hx
            rcases List.mem_cons.1 hx with rfl | hx
            · exact h1
            · exact h4 x hx
        · rintro ⟨h3, h4⟩
          exact ⟨by simpa using (List.pairwise_cons.1 h3).2, fun x hx => h4 x (List.mem_cons_of_mem _ hx)⟩

/-- `checkBatchValidity` of a batch that is not empty, with the barrier set. -/
theorem LogInv.checkBatch {l : LogMgr K} {A B} (h : LogInv l A B) (batch : List (Rec K)) (hne : batch ≠ [])
    (hN : ∀ r ∈ batch, r.seq ≤ NIL) (hroom : l.nextSeq + batch.length ≤ NIL) :
    ({ l with barrier := l.getMaxSeqNum.getD 0 } : LogMgr K).checkBatchValidity batch =
      .ok ∧ l.batchOk batch ∨
    ({ l with barrier := l.getMaxSeqNum.getD 0 } : LogMgr K).checkBatchValidity batch =
      .invalidSeqnum ∧ ¬ l.batchOk batch := by
  cases batch with
  | nil => exact absurd rfl hne
  | cons first rest =>
    unfold LogMgr.checkBatchValidity
    simp only [h.noOv]
    rw [if_neg (by rintro ⟨-, h2, -⟩; cases h2)]
    by_cases hf : first.seq = NIL
    · rw [if_pos (by simp [valid, hf])]
      by_cases ha : ∀ r ∈ first :: rest, r.seq = NIL
      · left
        refine ⟨?_, Or.inl ⟨ha, hroom⟩⟩
        rw [if_neg]
        simp only [List.any_eq_true, not_exists, not_and]
        intro r hr; simp [valid, ha r hr]
      · right
        refine ⟨?_, ?_⟩
        · rw [if_pos]
          simp only [List.any_eq_true]
          by_contra hx
          apply ha
          intro r hr
          by_contra hy
          exact hx ⟨r, hr, valid_iff.2 hy⟩
        · rintro (hb | hb)
          · exact ha hb.1
          · have := hb.2 first List.mem_cons_self; omega
    · rw [if_neg (by simp [valid, hf]), h.getMax_barrier, checkGo_ok]
      by_cases hp : (l.getMaxSeqNum.getD 0 :: (first :: rest).map (·.seq)).Pairwise (· < ·) ∧
          (∀ r ∈ first :: rest, r.seq ≠ NIL)
      · left
        rw [if_pos hp]
        refine ⟨rfl, Or.inr ⟨hp.1, fun r hr => ?_⟩⟩
        have := hp.2 r hr; have := hN r hr; omega
      · right
        rw [if_neg hp]
        refine ⟨rfl, ?_⟩
        rintro (hb | hb)
        · exact hf (hb.1 first List.mem_cons_self)
        · exact hp ⟨hb.1, fun r hr => Nat.ne_of_lt (hb.2 r hr)⟩

/-- A batch is accepted exactly if it is not empty and its numbers are admissible; a rejected
    batch leaves no trace. -/
theorem LogInv.setMulti {l : LogMgr K} {A B} (h : LogInv l A B) (batch : List (Rec K))
    (hN : ∀ r ∈ batch, r.seq ≤ NIL)
    (hroom : l.nextSeq + batch.length ≤ NIL) :
    (batch ≠ [] ∧ l.batchOk batch ∧
      ∃ l', l.setMulti batch = (.ok, l') ∧ BatchOk l batch A B l') ∨
    ((batch = [] ∨ ¬ l.batchOk batch) ∧
      l.setMulti batch = (if batch = [] then .emptyBatch else .invalidSeqnum, l)) := by
  have hbar : ({ l with barrier := 0 } : LogMgr K) = l := by rw [← h.bar]
  unfold LogMgr.setMulti
  rw [if_neg (by simp [h.rw])]
  by_cases hne : batch = []
  · right; exact ⟨Or.inl hne, by rw [if_pos hne, if_pos hne]⟩
  · rw [if_neg hne, if_neg (Nat.ne_of_lt h.numN), if_neg hne]
    simp only []
    have hval := h.checkBatch batch hne hN hroom
    rcases hval with ⟨hv, hb⟩ | ⟨hv, hb⟩
    · left
      refine ⟨hne, hb, ?_⟩
      obtain ⟨l', he, hok⟩ := h.setMultiInternal batch hb
      rw [hv]
      simp only [setMultiInternal_barrier, he]
      refine ⟨l', ?_, hok⟩
      have := hok.inv.bar
      rw [← this]
    · right
      refine ⟨Or.inr hb, ?_⟩
      rw [hv]
      simp only [hbar]

end Jungle
