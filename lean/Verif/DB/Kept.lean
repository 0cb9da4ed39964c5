/-
  Every record that is still in a log file, flushed or not, is an accepted one.
-/
import Verif.DB.Lemmas

set_option linter.unusedSectionVars false

namespace Jungle
open Spec
variable {K : Type} [LinearOrder K] {S : TableSys K}

/-- All records of all log files are in `h`. -/
def LogMgr.Kept (l : LogMgr K) (h : List (Rec K)) : Prop := ∀ f ∈ l.files, ∀ r ∈ f.mem.bySeq, r ∈ h

theorem Kept.mono {l : LogMgr K} {h h' : List (Rec K)} (hk : l.Kept h) (hs : ∀ r ∈ h, r ∈ h') : l.Kept h' :=
  fun f hf r hr => hs r (hk f hf r hr)

/-- One accepted record: what is in the files was there, or is not flushed. -/
theorem PutStep.recs {l l' : LogMgr K} {A B} (h : LogInv l A B) (hp : PutStep l l') {f : LogFile K}
    (hf : f ∈ l'.files) {r : Rec K} (hr : r ∈ f.mem.bySeq) :
    (∃ g ∈ l.files, r ∈ g.mem.bySeq) ∨ ∃ g ∈ l'.files, r ∈ g.pending := by
  cases hp with
  | @same fs f0 m' r0 s hl hput h0 hN hgt =>
    have hf0 : f0 ∈ l.files := by rw [hl]; simp
    rcases List.mem_append.1 hf with hf | hf
    · exact Or.inl ⟨f, by rw [hl]; simp [hf], hr⟩
    · simp only [List.mem_singleton] at hf; subst hf
      simp only [hput.bySeq] at hr
      rcases List.mem_append.1 hr with hr | hr
      · exact Or.inl ⟨f0, hf0, hr⟩
      · right
        refine ⟨{ f0 with mem := m' }, by simp, ?_⟩
        unfold LogFile.pending
        simp only [hput.bySeq, hput.flushed, List.filter_append, List.mem_append]
        right
        rw [List.mem_filter]
        refine ⟨hr, ?_⟩
        simp only [List.mem_singleton] at hr
        have hrs : r.seq = s := by rw [hr]; rfl
        have hw := h.wf f0 hf0
        by_cases hv : f0.mem.flushedSeqNum = NIL
        · simp [valid, hv]
        · rcases hw.flushed with h1 | h1
          · exact absurd h1 hv
          · rcases hgt with h2 | h2
            · omega
            · have : ¬ r.seq ≤ f0.mem.flushedSeqNum := by omega
              simp [this]
  | @new fs f0 m' r0 s hl hm hput h0 hN =>
    rcases List.mem_append.1 hf with hf | hf
    · exact Or.inl ⟨f, by rw [hl]; exact hf, hr⟩
    · simp only [List.mem_singleton] at hf
      right
      refine ⟨f, by rw [hf]; simp, ?_⟩
      unfold LogFile.pending
      rw [List.mem_filter]
      refine ⟨hr, ?_⟩
      subst hf
      simp [hput.flushed, MemTable.init, valid]

/-- Unflushed records stay when another is added. -/
theorem PutStep.pending {l l' : LogMgr K} (hp : PutStep l l') {r : Rec K}
    (hr : ∃ g ∈ l.files, r ∈ g.pending) : ∃ g ∈ l'.files, r ∈ g.pending := by
  obtain ⟨g, hg, hr⟩ := hr
  cases hp with
  | @same fs f0 m' r0 s hl hput h0 hN hgt =>
    rw [hl] at hg
    rcases List.mem_append.1 hg with hg | hg
    · exact ⟨g, by simp [hg], hr⟩
    · simp only [List.mem_singleton] at hg; subst hg
      refine ⟨{ g with mem := m' }, by simp, ?_⟩
      unfold LogFile.pending at hr ⊢
      simp only [hput.bySeq, hput.flushed, List.filter_append, List.mem_append]
      exact Or.inl hr
  | @new fs f0 m' r0 s hl hm hput h0 hN =>
    exact ⟨g, by rw [hl] at hg; exact List.mem_append_left _ hg, hr⟩

theorem PutSteps.recs {l l' : LogMgr K} (hp : PutSteps l l') :
    (∀ {r : Rec K}, (∃ g ∈ l.files, r ∈ g.pending) → ∃ g ∈ l'.files, r ∈ g.pending) ∧
    ∀ {A B}, LogInv l A B → ∀ {f : LogFile K}, f ∈ l'.files → ∀ {r : Rec K}, r ∈ f.mem.bySeq →
      (∃ g ∈ l.files, r ∈ g.mem.bySeq) ∨ ∃ g ∈ l'.files, r ∈ g.pending := by
  induction hp with
  | refl => exact ⟨fun h => h, fun _ f hf r hr => Or.inl ⟨f, hf, hr⟩⟩
  | step h1 h2 h3 _ ih =>
    obtain ⟨i1, i2⟩ := ih
    refine ⟨fun h => i1 (h1.pending h), fun hi f hf r hr => ?_⟩
    obtain ⟨A1, B1, h4⟩ := h3
    rcases i2 h4 hf hr with ⟨g, hg, hr'⟩ | h5
    · rcases h1.recs hi hg hr' with h6 | h6
      · exact Or.inl h6
      · exact Or.inr (i1 h6)
    · exact Or.inr h5

theorem maybeClose_bySeq (f : LogFile K) : f.maybeClose.mem.bySeq = f.mem.bySeq := by
  unfold LogFile.maybeClose; split <;> rfl

theorem flushMemTable_bySeq (f : LogFile K) (u : Nat) : (f.flushMemTable u).1.mem.bySeq = f.mem.bySeq := by
  unfold LogFile.flushMemTable
  split
  · rfl
  · have e1 : (if f.fOpen = true then f else { f with fOpen := true, integrity := .unknown }).mem.bySeq = f.mem.bySeq := by
      split <;> rfl
    generalize (if f.fOpen = true then f else { f with fOpen := true, integrity := .unknown }) = f1 at e1 ⊢
    simp only []
    have e2 : (if f1.integrity = .unknown then { f1 with integrity := if f1.torn = true then .corrupted else .valid } else f1).mem.bySeq = f.mem.bySeq := by
      rw [← e1]; split <;> rfl
    generalize (if f1.integrity = .unknown then { f1 with integrity := if f1.torn = true then .corrupted else .valid } else f1) = f2 at e2 ⊢
    split
    · exact e2
    · split
      · rw [maybeClose_bySeq]; exact e2
      · rw [maybeClose_bySeq]; exact e2

theorem setSynced_bySeq (f : LogFile K) (s : Nat) : (f.setSyncedSeqNum s).mem.bySeq = f.mem.bySeq := by
  unfold LogFile.setSyncedSeqNum; split <;> (try split) <;> rfl

theorem setFlushed_bySeq (f : LogFile K) (s : Nat) : (f.setFlushedSeqNum s).mem.bySeq = f.mem.bySeq := by
  unfold LogFile.setFlushedSeqNum; split <;> (try split) <;> rfl

theorem syncFile_bySeq (b n : Nat) (f : LogFile K) : (LogMgr.syncFile b n f).1.mem.bySeq = f.mem.bySeq := by
  unfold LogMgr.syncFile
  generalize (if b ≠ 0 then b else NIL) = u
  simp only []
  split
  · show ((f.flushMemTable u).1.maybeClose.setSyncedSeqNum (f.flushMemTable u).2).mem.bySeq = _
    rw [setSynced_bySeq, maybeClose_bySeq, flushMemTable_bySeq]
  · rw [setSynced_bySeq, maybeClose_bySeq, flushMemTable_bySeq]

theorem Kept.sync {l : LogMgr K} {h : List (Rec K)} (hk : l.Kept h) : (l.sync).2.Kept h := by
  unfold LogMgr.sync
  split
  · exact hk
  · split
    · exact hk
    · generalize (if l.lastSynced ≠ NIL then l.lastSynced else l.minNum) = u
      simp only []
      split
      · exact hk
      · intro f hf r hr
        simp only [List.map_map, List.mem_map, Function.comp] at hf
        obtain ⟨g, hg, rfl⟩ := hf
        refine hk g hg r ?_
        split at hr
        · rwa [syncFile_bySeq] at hr
        · exact hr

theorem Kept.checkpoint {l : LogMgr K} {h : List (Rec K)} (hk : l.Kept h) : l.checkpoint.1.Kept h := by
  unfold LogMgr.checkpoint
  cases hf : l.file? l.maxNum with
  | none => exact hk
  | some g =>
    have hg : g ∈ l.files := List.mem_of_find?_eq_some hf
    intro f hf r hr
    simp only [LogMgr.setFile, List.mem_map] at hf
    obtain ⟨x, hx, rfl⟩ := hf
    split at hr
    · refine hk g hg r ?_
      have : g.mem.checkpoint.1.bySeq = g.mem.bySeq := by
        unfold MemTable.checkpoint; split <;> (try split) <;> rfl
      rw [← this]; exact hr
    · exact hk x hx r hr

end Jungle
