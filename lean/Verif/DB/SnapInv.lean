/-
  Invariant behind snapshots: where the records of the history are, which checkpoints the files of
  the log and of level 0 know, and what a snapshot that was opened earlier still sees.
-/
import Verif.DB.Eff
import Verif.Table.SnapLemmas

set_option linter.unusedSectionVars false

namespace Jungle
open Spec
variable {K : Type} [LinearOrder K] [OrderBot K] {c : TCfg K} {parts : Nat} {hp : 0 < parts} {keep : Nat}

/-- Checkpoints of a log file: numbers of its records, ascending. -/
structure ChkOk (f : LogFile K) : Prop where
  recs : ∀ n ∈ f.mem.checkpoints, ∃ r ∈ f.mem.bySeq, r.seq = n
  asc : f.mem.checkpoints.Pairwise (· < ·)
  top : f.Top

structure DInv (db : DB K (LsmC c parts hp keep)) (A B : List (Rec K)) : Prop where
  marks : CMgr.MInv c (db.table : CMgr K) A
  flat : ∃ D, A ++ B = D ++ db.log.files.flatMap (·.mem.bySeq)
  chk : ∀ f ∈ db.log.files, ChkOk f

theorem DInv.init (cfg : Cfg) : DInv (DB.init (LsmC c parts hp keep) cfg) [] [] := by
  refine ⟨CMgr.MInv.init c hp, ⟨[], rfl⟩, ?_⟩
  intro f hf
  have : (DB.init (LsmC c parts hp keep) cfg).log = LogMgr.init cfg := rfl
  rw [this] at hf
  simp only [LogMgr.init, List.mem_singleton] at hf
  subst hf
  exact ⟨fun n hn => (List.not_mem_nil hn).elim, List.Pairwise.nil, fun h => absurd rfl h⟩

theorem flushUpd_chk (g : LogFile K) (s : Nat) (b : Bool) :
    ((if b = true then g.setSyncedSeqNum s else g).setFlushedSeqNum s).mem.checkpoints = g.mem.checkpoints := by
  rw [setFlushed_chk]; split
  · exact setSynced_chk _ _
  · rfl

theorem mem_pending {f : LogFile K} {r : Rec K} : r ∈ f.pending ↔ r ∈ f.mem.bySeq ∧
    ¬ (f.mem.flushedSeqNum ≠ NIL ∧ r.seq ≤ f.mem.flushedSeqNum) := by
  unfold LogFile.pending
  rw [List.mem_filter]
  by_cases h : f.mem.flushedSeqNum = NIL <;> simp [valid, h]

theorem mem_getCheckpoints {m : MemTable K} {s n : Nat} : n ∈ m.getCheckpoints s ↔ n ∈ m.checkpoints ∧
    ¬ (m.flushedSeqNum ≠ NIL ∧ n ≤ m.flushedSeqNum) ∧ (n ≤ s ∨ s = NIL) := by
  unfold MemTable.getCheckpoints
  rw [List.mem_filter]
  by_cases h : m.flushedSeqNum = NIL <;> simp [valid, h]

theorem DInv.step {db db' : DB K (LsmC c parts hp keep)} {cs cs' : List PMani} {n n' : Nat} {A B N : List (Rec K)}
    (hi : PInv ⟨db, cs⟩ n A B) {A' B' : List (Rec K)} (hi' : PInv ⟨db', cs'⟩ n' A' B') (he : A' ++ B' = A ++ B ++ N)
    (hf : Eff db A B db' N) (h : DInv db A B) : DInv db' A' B' := by
  have hl := hi.inv.log
  have hl' := hi'.inv.log
  cases hf with
  | write hw ht =>
    have hB' : B' = B ++ N := by rw [hl'.pend, hl.pend]; exact hw.pend
    have hA' : A' = A := by
      rw [hB', ← List.append_assoc] at he
      exact List.append_cancel_right (List.append_cancel_right he)
    subst hA'
    refine ⟨by rw [ht]; exact h.marks, ?_, ?_⟩
    · obtain ⟨D, hD⟩ := h.flat
      exact ⟨D, by rw [he, hw.flat, hD, List.append_assoc]⟩
    · intro f' hf'
      rcases hw.files f' hf' with ⟨-, h1, h2⟩ | ⟨f, h1, h2, ⟨X, h3, -⟩, h4, h5⟩
      · exact ⟨by rw [h1]; exact fun _ h => (List.not_mem_nil h).elim, by rw [h1]; exact List.Pairwise.nil, h2⟩
      · have hk := h.chk f h1
        refine ⟨?_, by rw [h4]; exact hk.asc, h5 hk.top⟩
        rw [h4, h3]
        intro n hn
        obtain ⟨r, hr, e⟩ := hk.recs n hn
        exact ⟨r, List.mem_append_left _ hr, e⟩
  | touch ht htab =>
    obtain ⟨-, -, φ, h1, h2⟩ := ht
    have hB' : B' = B := by
      rw [hl'.pend, hl.pend, h1, List.flatMap_map]
      apply flatMap_congr_mem
      intro f hf
      obtain ⟨-, a, -, b, -⟩ := h2 f hf
      unfold LogFile.pending; rw [a, b]
    have hA' : A' = A := by
      rw [hB', List.append_nil] at he; exact List.append_cancel_right he
    subst hA' hB'
    refine ⟨by rw [htab]; exact h.marks, ?_, ?_⟩
    · obtain ⟨D, hD⟩ := h.flat
      refine ⟨D, ?_⟩
      rw [hD, h1, List.flatMap_map]
      congr 1
      apply flatMap_congr_mem
      intro f hf; exact (h2 f hf).2.1.symm
    · intro f' hf'
      rw [h1] at hf'
      obtain ⟨f, hf, rfl⟩ := List.mem_map.1 hf'
      obtain ⟨-, a2, a3, -, a5⟩ := h2 f hf
      have hk := h.chk f hf
      have htop : (φ f).Top := by unfold LogFile.Top; rw [a2, a3]; exact hk.top
      rcases a5 with a5 | ⟨b1, b2, b3⟩
      · exact ⟨by rw [a5, a2]; exact hk.recs, by rw [a5]; exact hk.asc, htop⟩
      · refine ⟨?_, ?_, htop⟩
        · rw [b3, a2]
          intro n hn
          rcases List.mem_append.1 hn with hn | hn
          · exact hk.recs n hn
          · rw [List.mem_singleton.1 hn]; exact hk.top b1
        · rw [b3, List.pairwise_append]
          refine ⟨hk.asc, List.pairwise_singleton _ _, ?_⟩
          intro a ha b hb
          rw [List.mem_singleton.1 hb]
          obtain ⟨r, hr, hre⟩ := hk.recs a ha
          have hle : a ≤ f.mem.maxSeqNum := by rw [← hre]; exact ((hl.wf f hf).bound r hr).2.1
          refine Nat.lt_of_le_of_ne hle ?_
          intro hea
          apply b2
          rw [← hea]
          obtain ⟨l1, l2, hl12⟩ := List.append_of_mem ha
          have hasc := hk.asc
          rw [hl12] at hasc ⊢
          cases l2 with
          | nil => simp
          | cons z l2 =>
            exfalso
            have := (List.pairwise_cons.1 (List.pairwise_append.1 hasc).2.1).1 z (by simp)
            obtain ⟨r', hr', hre'⟩ := hk.recs z (by rw [hl12]; simp)
            have := ((hl.wf f hf).bound r' hr').2.1
            omega
  | @flush o P g Q s hF hlog htab =>
    obtain ⟨g', hg', hrel, hfl, hsN, hgat, hB⟩ := hF.exact hl
    have hfiles' : db'.log.files = g' :: Q := by rw [hlog]; unfold LogMgr.flushed; rw [← hg']
    have hB' : B' = g'.pending ++ Q.flatMap LogFile.pending := by rw [hl'.pend, hfiles']; rfl
    have hA' : A' = A ++ LogMgr.gather s o.beyondLastSync (P ++ [g]) := by
      rw [List.append_nil, hB', hB, ← List.append_assoc A] at he
      exact List.append_cancel_right he
    have hchk : g'.mem.checkpoints = g.mem.checkpoints := by rw [hg']; exact flushUpd_chk _ _ _
    refine ⟨?_, ?_, ?_⟩
    · rw [hA', htab]
      split
      · next hg0 => rw [hg0, List.append_nil]; exact h.marks
      · refine h.marks.batch keep _ hi.tab ?_ ?_ ?_
        · have := hl'.inc
          rw [hA'] at this
          exact (List.pairwise_append.1 this).1
        · intro r hr
          exact (hi.inv.pos r (by rw [hB]; simp [hr])).1
        · intro n hn
          unfold LogMgr.gatherCheckpoints at hn
          obtain ⟨f, hf, hn⟩ := List.mem_flatMap.1 hn
          obtain ⟨n1, n2, n3⟩ := mem_getCheckpoints.1 hn
          have hff : f ∈ db.log.files := by
            rw [hF.files]; simp only [List.mem_append, List.mem_singleton, List.mem_cons] at hf ⊢; tauto
          obtain ⟨r, hr, hre⟩ := (h.chk f hff).recs n n1
          refine ⟨r, ?_, hre⟩
          have hpend : r ∈ f.pending := mem_pending.2 ⟨hr, by rw [hre]; exact n2⟩
          rw [hgat]
          rcases List.mem_append.1 hf with h1 | h1
          · exact List.mem_append_left _ (List.mem_flatMap.2 ⟨f, h1, hpend⟩)
          · have := List.mem_singleton.1 h1
            subst this
            apply List.mem_append_right
            unfold LogFile.moved
            rw [List.mem_filter]
            refine ⟨hpend, ?_⟩
            rw [hfl, hre]
            have : n ≤ s := by rcases n3 with h | h; exact h; exact absurd h hsN
            simp [valid, hsN, this]
    · obtain ⟨D, hD⟩ := h.flat
      refine ⟨D ++ P.flatMap (·.mem.bySeq), ?_⟩
      rw [he, List.append_nil, hD, hF.files, hfiles', List.flatMap_append, List.flatMap_cons, List.flatMap_cons, hrel.bySeq,
        List.append_assoc]
    · intro f hf
      rw [hfiles'] at hf
      rcases List.mem_cons.1 hf with h1 | h1
      · subst h1
        have hk := h.chk g (by rw [hF.files]; simp)
        refine ⟨by rw [hchk, hrel.bySeq]; exact hk.recs, by rw [hchk]; exact hk.asc, ?_⟩
        unfold LogFile.Top; rw [hrel.bySeq, hrel.max]; exact hk.top
      · exact h.chk f (by rw [hF.files]; simp [h1])
  | maint hlog hm =>
    have hB' : B' = B := by rw [hl'.pend, hl.pend, hlog]
    have hA' : A' = A := by
      rw [hB', List.append_nil] at he; exact List.append_cancel_right he
    subst hA' hB'
    exact ⟨h.marks.maint hm, by rw [hlog]; exact h.flat, by rw [hlog]; exact h.chk⟩

/-- Opening again. -/
theorem DInv.reopen {db : DB K (LsmC c parts hp keep)} {cs : List PMani} {n : Nat} {A B : List (Rec K)}
    (hi : PInv ⟨db, cs⟩ n A B) {cfg : Cfg} {d : Disk K (LsmC c parts hp keep)} {q : Nat} (hd : Reopens db cs cfg d q)
    (h : DInv db A B) : DInv (DB.reopen cfg d) A (cutAt q B) := by
  have hl := hi.inv.log
  have hD := hi.durable hd
  obtain ⟨-, hp'⟩ := hi.reopen hd
  have hlog : (DB.reopen cfg d).log = db.log.reloaded cfg d.files := hD.recover hl cfg
  refine ⟨?_, hp'.ext.flat, ?_⟩
  · have : (DB.reopen cfg d).table = (⟨(db.table : CMgr K).tab.reopen, (db.table : CMgr K).marks⟩ : CMgr K) := by
      show (LsmC c parts hp keep).reopen d.table = _; rw [hd.table]; rfl
    rw [this]; exact h.marks.reopen
  · rw [hlog]
    intro f' hf'
    obtain ⟨f, hf, rfl⟩ := List.mem_map.1 hf'
    obtain ⟨items, i1, i2, i3⟩ := hd.files f hf
    obtain ⟨items', j1, j2, j3, j4⟩ := hD.disk f hf
    rw [show d.files.find? _ = d.file f.num from rfl, i1] at j1
    obtain rfl : items = items' := by simpa using j1
    obtain ⟨hR, -, hm⟩ := reload_ok i1 j2 j3 j4 (hl.wf f hf).sorted
    have hc : (db.log.syncOne f).Complete := by
      unfold LogMgr.syncOne
      split
      · rw [hl.bar]; exact (hd.complete f hf).sync (hi.store.ok f hf) (hl.wf f hf) (hi.ext.top f hf) _
      · exact hd.complete f hf
    have hmk := marked_prefix i3 hc.1
    have hI : Increasing (dataOf items) := by rw [j2]; exact inc_cutAt q (hl.wf f hf).sorted
    obtain ⟨g1, g2⟩ := load_marked items
      ({ startSeqNum := f.mem.minSeqNum, minSeqNum := f.mem.minSeqNum, flushedSeqNum := f.mem.flushedSeqNum,
         maxSeqNum := NIL, seqNumAlloc := NIL } : MemTable K) none ⟨List.Pairwise.nil, fun k => by simp [SMap.find?, keyRecs]⟩ (by simpa using hI) hmk
      (fun _ e => (nomatch e)) (fun _ e => (nomatch e)) List.Pairwise.nil
    have e1 : (reload d.files f).mem.checkpoints = (items.foldl MemTable.loadItem
      ({ startSeqNum := f.mem.minSeqNum, minSeqNum := f.mem.minSeqNum, flushedSeqNum := f.mem.flushedSeqNum,
         maxSeqNum := NIL, seqNumAlloc := NIL } : MemTable K)).checkpoints := by
      rw [hm]; unfold MemTable.load; simp only; split <;> rfl
    have e2 : (reload d.files f).mem.bySeq = (items.foldl MemTable.loadItem
      ({ startSeqNum := f.mem.minSeqNum, minSeqNum := f.mem.minSeqNum, flushedSeqNum := f.mem.flushedSeqNum,
         maxSeqNum := NIL, seqNumAlloc := NIL } : MemTable K)).bySeq := by
      rw [hm]; unfold MemTable.load; simp only; split <;> rfl
    exact ⟨by rw [e1, e2]; exact g1, by rw [e1]; exact g2, fun _ => hR.last⟩

theorem PReach.dinv {p : PDB K (LsmC c parts hp keep)} {h : List (Rec K)} {n : Nat} (hr : PReach p h n) :
    ∃ A B, h = A ++ B ∧ PInv p n A B ∧ DInv p.db A B := by
  have key : ∀ A B, h = A ++ B → LogInv p.db.log A B → DInv p.db A B := by
    refine PReach.induct (P := fun db h => ∀ A B, h = A ++ B → LogInv db.log A B → DInv db A B) ?_ ?_ ?_ hr
    · intro cfg _ A B e _
      have := List.append_eq_nil_iff.1 e.symm
      rw [this.1, this.2]; exact DInv.init cfg
    · intro db db' cs cs' h n n' A B N hr hi e hr' hf ih A' B' e' hl'
      obtain ⟨A1, B1, e1, hi1⟩ := hr'.inv
      have hB : B1 = B' := by rw [hi1.inv.log.pend, hl'.pend]
      have hA : A1 = A' := by
        rw [e', hB] at e1; exact (List.append_cancel_right e1).symm
      subst hA hB
      exact DInv.step hi hi1 (by rw [← e', e]) hf (ih A B e hi.inv.log)
    · intro db cs h n A B cfg d q hr hi e hd ih A' B' e' hl'
      obtain ⟨e1, hi1⟩ := hi.reopen hd
      have hB : cutAt q B = B' := by rw [hi1.inv.log.pend, hl'.pend]
      have hA : A = A' := by
        rw [e, ← e1, hB] at e'; exact List.append_cancel_right e'
      subst hA hB
      exact DInv.reopen hi hd (ih A B e hi.inv.log)
  obtain ⟨A, B, e, hi⟩ := hr.inv
  exact ⟨A, B, e, hi, key A B e hi.inv.log⟩

end Jungle
