/-
  What writing records does to the files of the log.
-/
import Verif.Log.MgrLemmas2

set_option linter.unusedSectionVars false

namespace Jungle
open Spec
variable {K : Type} [LinearOrder K]

/-- The highest number of the file is that of a record in it. -/
def LogFile.Top (f : LogFile K) : Prop := f.mem.maxSeqNum ≠ NIL → ∃ r ∈ f.mem.bySeq, r.seq = f.mem.maxSeqNum

/-- The log after the records `N` were written. -/
structure Wrote (l l' : LogMgr K) (N : List (Rec K)) : Prop where
  num : l.maxNum ≤ l'.maxNum
  flat : l'.files.flatMap (·.mem.bySeq) = l.files.flatMap (·.mem.bySeq) ++ N
  pend : l'.files.flatMap LogFile.pending = l.files.flatMap LogFile.pending ++ N
  old : ∀ f ∈ l.files, ∃ f' ∈ l'.files, f'.num = f.num
  files : ∀ f' ∈ l'.files, (l.maxNum < f'.num ∧ f'.mem.checkpoints = [] ∧ f'.Top) ∨
    ∃ f ∈ l.files, f'.num = f.num ∧
      (∃ X, f'.mem.bySeq = f.mem.bySeq ++ X ∧ ∀ r ∈ X, ∀ m, l.getMaxSeqNum = some m → m < r.seq) ∧
      f'.mem.checkpoints = f.mem.checkpoints ∧ (f.Top → f'.Top)
  max : ∀ m, l.getMaxSeqNum = some m → ∃ m', l'.getMaxSeqNum = some m' ∧ m ≤ m'

theorem Wrote.refl (l : LogMgr K) : Wrote l l [] :=
  ⟨Nat.le_refl _, by simp, by simp, fun f hf => ⟨f, hf, rfl⟩,
    fun f hf => Or.inr ⟨f, hf, rfl, ⟨[], by simp, by simp⟩, rfl, id⟩, fun m h => ⟨m, h, Nat.le_refl _⟩⟩

theorem Wrote.trans {l l1 l2 : LogMgr K} {N N' : List (Rec K)} (h : Wrote l l1 N) (h' : Wrote l1 l2 N') :
    Wrote l l2 (N ++ N') := by
  refine ⟨Nat.le_trans h.num h'.num, by rw [h'.flat, h.flat, List.append_assoc],
    by rw [h'.pend, h.pend, List.append_assoc], ?_, ?_, ?_⟩
  · intro f hf
    obtain ⟨f1, h1, h2⟩ := h.old f hf
    obtain ⟨f2, h3, h4⟩ := h'.old f1 h1
    exact ⟨f2, h3, h4.trans h2⟩
  · intro f hf
    rcases h'.files f hf with ⟨h1, h2⟩ | ⟨f1, h1, h2, ⟨X, h3, h4⟩, h5, h6⟩
    · exact Or.inl ⟨Nat.lt_of_le_of_lt h.num h1, h2⟩
    · rcases h.files f1 h1 with ⟨g1, g2, g3⟩ | ⟨f0, g1, g2, ⟨Y, g3, g4⟩, g5, g6⟩
      · exact Or.inl ⟨by rw [h2]; exact g1, by rw [h5]; exact g2, h6 g3⟩
      · refine Or.inr ⟨f0, g1, h2.trans g2, ⟨Y ++ X, by rw [h3, g3, List.append_assoc], ?_⟩, h5.trans g5, fun h => h6 (g6 h)⟩
        intro r hr m hm
        rcases List.mem_append.1 hr with hr | hr
        · exact g4 r hr m hm
        · obtain ⟨m1, hm1, hle⟩ := h.max m hm
          exact Nat.lt_of_le_of_lt hle (h4 r hr m1 hm1)
  · intro m hm
    obtain ⟨m1, h1, h2⟩ := h.max m hm
    obtain ⟨m2, h3, h4⟩ := h'.max m1 h1
    exact ⟨m2, h3, Nat.le_trans h2 h4⟩

theorem PutStep.wrote {l l' : LogMgr K} {A B A' B'} (h : LogInv l A B) (h' : LogInv l' A' B') (hp : PutStep l l') :
    ∃ x, Wrote l l' [x] := by
  cases hp with
  | @same fs f m' r s hf hput h0 hN hgt =>
    have hff : f ∈ l.files := by rw [hf]; simp
    have hmx := h.getMax_eq hf
    have hmx' := h'.getMax_eq (fs := fs) (f := { f with mem := m' }) rfl
    have hN' : m'.maxSeqNum ≠ NIL := by rw [hput.max]; omega
    have hpend : ({ f with mem := m' } : LogFile K).pending = f.pending ++ [MemTable.accepted r s] := by
      unfold LogFile.pending
      simp only [hput.bySeq, hput.flushed, List.filter_append]
      congr 1
      have hw := h.wf f hff
      rw [List.filter_eq_self]
      intro x hx
      simp only [List.mem_singleton] at hx
      have hrs : x.seq = s := by rw [hx]; rfl
      by_cases hv : f.mem.flushedSeqNum = NIL
      · simp [valid, hv]
      · rcases hw.flushed with h1 | h1
        · exact absurd h1 hv
        · rcases hgt with h2 | h2
          · omega
          · have : ¬ x.seq ≤ f.mem.flushedSeqNum := by omega
            simp [this]
    refine ⟨MemTable.accepted r s, Nat.le_refl _, ?_, ?_, ?_, ?_, ?_⟩
    · rw [hf]; simp [hput.bySeq]
    · rw [hf]; simp only [List.flatMap_append, List.flatMap_cons, List.flatMap_nil, List.append_nil]
      rw [hpend, List.append_assoc]
    · intro x hx
      rw [hf] at hx
      rcases List.mem_append.1 hx with hx | hx
      · exact ⟨x, by simp [hx], rfl⟩
      · simp only [List.mem_singleton] at hx; subst hx
        exact ⟨{ x with mem := m' }, by simp, rfl⟩
    · intro x hx
      right
      rcases List.mem_append.1 hx with hx | hx
      · exact ⟨x, by rw [hf]; simp [hx], rfl, ⟨[], by simp, by simp⟩, rfl, id⟩
      · simp only [List.mem_singleton] at hx; subst hx
        refine ⟨f, hff, rfl, ⟨[MemTable.accepted r s], hput.bySeq, ?_⟩, hput.chk, ?_⟩
        · intro x hx m hm
          simp only [List.mem_singleton] at hx
          have hrs : x.seq = s := by rw [hx]; rfl
          rw [hmx] at hm
          split at hm
          · next hne =>
            cases hm
            rcases hgt with h2 | h2
            · exact absurd h2 hne
            · omega
          · cases hm
        · intro _ _
          refine ⟨MemTable.accepted r s, by rw [hput.bySeq]; simp, ?_⟩
          show s = _
          rw [hput.max]
    · intro m hm
      rw [hmx] at hm
      rw [hmx', if_pos hN']
      split at hm
      · next hne =>
        cases hm
        refine ⟨_, rfl, ?_⟩
        simp only []
        rw [hput.max]
        rcases hgt with h2 | h2
        · exact absurd h2 hne
        · omega
      · cases hm
  | @new fs f m' r s hf hm hput h0 hN =>
    have hff : f ∈ l.files := by rw [hf]; simp
    have hmx := h.getMax_eq hf
    have hmx' := h'.getMax_eq (fs := fs ++ [f])
      (f := { num := l.maxNum + 1, startSeq := inc64 f.mem.maxSeqNum, mem := m' }) rfl
    have hN' : m'.maxSeqNum ≠ NIL := by rw [hput.max]; omega
    have hby : m'.bySeq = [MemTable.accepted r s] := by rw [hput.bySeq]; rfl
    refine ⟨MemTable.accepted r s, Nat.le_succ _, ?_, ?_, ?_, ?_, ?_⟩
    · rw [hf]; simp [hby]
    · rw [hf]; simp only [List.flatMap_append, List.flatMap_cons, List.flatMap_nil, List.append_nil]
      congr 1
      unfold LogFile.pending
      simp [hby, hput.flushed, MemTable.init, valid]
    · intro x hx
      exact ⟨x, by rw [hf] at hx; exact List.mem_append_left _ hx, rfl⟩
    · intro x hx
      rcases List.mem_append.1 hx with hx | hx
      · right; exact ⟨x, by rw [hf]; exact hx, rfl, ⟨[], by simp, by simp⟩, rfl, id⟩
      · left
        simp only [List.mem_singleton] at hx; subst hx
        refine ⟨Nat.lt_succ_self _, hput.chk, ?_⟩
        intro _
        exact ⟨MemTable.accepted r s, by simp [hby], by rw [hput.max]; rfl⟩
    · intro m hm'
      rw [hmx, if_pos hm] at hm'
      cases hm'
      rw [hmx', if_pos hN']
      refine ⟨_, rfl, ?_⟩
      have ho := h'.order
      have := (List.pairwise_append.1 ho).2.2 f (by simp) _ (List.mem_singleton.2 rfl)
      exact (this.max hm).2

theorem PutSteps.wrote {l l' : LogMgr K} (hp : PutSteps l l') {A B} (h : LogInv l A B) : ∃ N, Wrote l l' N := by
  induction hp generalizing A B with
  | refl => exact ⟨[], Wrote.refl _⟩
  | step h1 h2 h3 _ ih =>
    obtain ⟨A1, B1, h4⟩ := h3
    obtain ⟨x, hx⟩ := h1.wrote h h4
    obtain ⟨N, hN⟩ := ih h4
    exact ⟨_, hx.trans hN⟩

/-- A file that has been synced keeps its smallest number when records are written. -/
theorem PutStep.mins {l l' : LogMgr K} {A B} (h : LogInv l A B) (hp : PutStep l l') {f' : LogFile K} (hf' : f' ∈ l'.files)
    (hs : f'.mem.syncedSeqNum ≠ NIL) : ∃ f ∈ l.files, f.num = f'.num ∧ f.mem.syncedSeqNum ≠ NIL ∧
      f.mem.minSeqNum = f'.mem.minSeqNum := by
  cases hp with
  | @same fs f m' r s hf hput h0 hN hgt =>
    rcases List.mem_append.1 hf' with h1 | h1
    · exact ⟨f', by rw [hf]; simp [h1], rfl, hs, rfl⟩
    · rw [List.mem_singleton] at h1; subst h1
      have hff : f ∈ l.files := by rw [hf]; simp
      have hs' : f.mem.syncedSeqNum ≠ NIL := by rw [← hput.synced]; exact hs
      refine ⟨f, hff, rfl, hs', ?_⟩
      have hmx : f.mem.maxSeqNum ≠ NIL := by
        rcases (h.wf f hff).synced with h2 | h2
        · exact absurd h2 hs'
        · omega
      show _ = m'.minSeqNum
      rw [hput.min, if_neg hmx]
  | @new fs f m' r s hf hm hput h0 hN =>
    rcases List.mem_append.1 hf' with h1 | h1
    · exact ⟨f', by rw [hf]; exact h1, rfl, hs, rfl⟩
    · rw [List.mem_singleton] at h1; subst h1
      exact absurd hput.synced hs

theorem PutSteps.mins {l l' : LogMgr K} (hp : PutSteps l l') {A B} (h : LogInv l A B) {f' : LogFile K} (hf' : f' ∈ l'.files)
    (hs : f'.mem.syncedSeqNum ≠ NIL) : ∃ f ∈ l.files, f.num = f'.num ∧ f.mem.syncedSeqNum ≠ NIL ∧
      f.mem.minSeqNum = f'.mem.minSeqNum := by
  induction hp generalizing A B with
  | refl => exact ⟨f', hf', rfl, hs, rfl⟩
  | step h1 h2 h3 _ ih =>
    obtain ⟨A1, B1, h4⟩ := h3
    obtain ⟨f1, a1, a2, a3, a4⟩ := ih h4 hf'
    obtain ⟨f, b1, b2, b3, b4⟩ := h1.mins h a1 a3
    exact ⟨f, b1, b2.trans a2, b3, b4.trans a4⟩

end Jungle
