/-
  The log section a bulk build leaves, opened again.
-/
import Verif.Builder.Model

set_option linter.unusedSectionVars false
set_option linter.unusedSimpArgs false

namespace Jungle
open Spec
variable {K : Type} [LinearOrder K]

/-- The only log file after opening: no record, the biggest number of the tables as its maximum, and
    no flush mark, because `LogMgr::init` sets the flush mark before the sync mark. -/
def builtFile (n : Nat) : LogFile K :=
  { num := 0, startSeq := n + 1
    mem := { startSeqNum := n + 1, minSeqNum := n + 1, maxSeqNum := n, seqNumAlloc := n }
    immutable := true, fOpen := true, integrity := .unknown, disk := [.flushMarker n] }

theorem LogMgr.built_eq (cfg : Cfg) {n : Nat} (h0 : 0 < n) (hN : n < NIL) (hrw : cfg.readOnly = false) :
    (LogMgr.built cfg n : LogMgr K) =
      { cfg := cfg, files := [builtFile n], maxNum := 0, lastFlushed := NIL, lastSynced := 0 } := by
  have e1 : n ≠ NIL := by omega
  have e2 : (n = NIL) = False := eq_false e1
  have e3 : (0 = NIL) = False := eq_false (by decide)
  have hv : valid n = true := by unfold valid; simp [e1]
  have hv2 : valid NIL = false := by decide
  have e4 : ¬ (NIL : Nat) = 0 := by decide
  have e5 : ¬ NIL < n := by omega
  have hc : ({ num := 0, startSeq := 1, mem := { startSeqNum := n, maxSeqNum := n, syncedSeqNum := n } } :
      LogFile K) =
      ((((LogFile.create 0 n 1 : LogFile K).updateMaxSeqNum n).setFlushedSeqNum n).setSyncedSeqNum n) := by
    simp [LogFile.updateMaxSeqNum, LogFile.setFlushedSeqNum, LogFile.setSyncedSeqNum, LogFile.create,
      MemTable.init, e2]
  have hs : (LogMgr.initAt cfg n : LogMgr K).sync.2 =
      { cfg := cfg
        files := [{ num := 0, startSeq := 1, mem := { startSeqNum := n, maxSeqNum := n, syncedSeqNum := n },
                    disk := [.flushMarker n] }]
        maxNum := 0, lastSynced := 0 } := by
    unfold LogMgr.initAt
    simp only [h0, if_true, ← hc]
    simp [LogMgr.sync, hrw, e3, LogMgr.minNum, LogMgr.syncFile, LogFile.flushMemTable, LogFile.create,
      MemTable.init, LogFile.maybeClose, LogFile.okToClose, LogFile.setSyncedSeqNum, e2,
      Nat.lt_of_le_of_ne (Nat.le_of_lt hN) e1]
  unfold LogMgr.built
  simp only [hs]
  simp [LogMgr.recover, LogMgr.persist, LogMgr.loadLoop, LogFile.onDisk, LogFile.create, MemTable.init, hv, hv2,
    LogFile.load, MemTable.load, MemTable.loadItem, dataOf, LogFile.maybeClose, LogFile.okToClose,
    LogFile.isSynced, builtFile]

theorem LogMgr.built_inv (cfg : Cfg) (hc : cfg.Plain) {n : Nat} (h0 : 0 < n) (hN : n < NIL) :
    LogInv (LogMgr.built cfg n : LogMgr K) [] [] ∧ (LogMgr.built cfg n : LogMgr K).getMaxSeqNum = some n ∧
    (LogMgr.built cfg n : LogMgr K).cfg = cfg := by
  have e1 : n ≠ NIL := by omega
  rw [LogMgr.built_eq cfg h0 hN hc.rw]
  refine ⟨?_, ?_, rfl⟩
  · have hwf : (builtFile n : LogFile K).mem.WF := by
      refine ⟨List.Pairwise.nil, List.Pairwise.nil, ?_, rfl, fun h => absurd h e1, Nat.le_of_lt hN,
        by simp [builtFile], fun _ => Nat.le_refl _, Or.inl rfl, Or.inl rfl, Or.inl rfl⟩
      intro k; simp [builtFile, SMap.find?, keyRecs]
    refine ⟨hc.rw, hc.noOverwrite, rfl, by simp, ⟨0, rfl, rfl⟩, by show 0 < NIL; decide, ?_, ?_,
      hc.entries, ?_, ?_, List.pairwise_singleton _ _, Or.inl rfl, Or.inr ⟨Nat.le_refl _, Nat.le_refl _⟩, ?_,
      (fun _ _ _ _ hr => by cases hr), ?_, List.Pairwise.nil, ?_⟩
    · intro f hf; simp only [List.mem_singleton] at hf; subst hf; exact hwf
    · intro f hf; simp only [List.mem_singleton] at hf; subst hf
      exact ⟨by simp [builtFile], fun _ => Nat.le_refl _, fun h => absurd h e1⟩
    · intro f hf; simp only [List.mem_singleton] at hf; subst hf; intro h; exact absurd h e1
    · intro f hf; simp only [List.mem_singleton] at hf; subst hf; intro h; exact absurd h e1
    · intro _ f hf hlt
      rcases hlt with h | ⟨-, h⟩
      · exact absurd h (Nat.not_lt_zero _)
      · exact absurd h (Nat.not_lt_zero _)
    · simp [builtFile, LogFile.pending]
    · intro fs f hf
      have hl : fs = [] := by
        have := congrArg List.length hf
        simp at this; exact this
      subst hl
      simp only [List.nil_append, List.cons.injEq, and_true] at hf
      subst hf
      exact ⟨fun h => absurd h e1, fun _ r hr => by simp at hr⟩
  · simp [LogMgr.getMaxSeqNum, LogMgr.getMaxSeqNum.go, LogMgr.file?, builtFile, e1]

end Jungle
