/-
  The invariant of all reachable states.
-/
import Verif.DB.Reach
import Verif.DB.Eff

set_option linter.unusedSectionVars false

namespace Jungle
open Spec
variable {K : Type} [LinearOrder K] {S : TableSys K}

/-- A condition on the tables and the two parts of the history that every operation keeps. -/
structure TablePred (S : TableSys K) (P : S.T → List (Rec K) → List (Rec K) → Prop) : Prop where
  init : P S.empty [] []
  write : ∀ {t A B} X, P t A B → P t A (B ++ X)
  flush : ∀ {t A D B' R t'} cps, S.Inv t → P t A (D ++ B') → Increasing (A ++ (D ++ B')) → Increasing R →
    (∀ r ∈ R, r ∈ D ++ B') → t' = (if R = [] then t else S.setBatch t R cps) →
    (∀ k, lastWrite B' k = none → lastWrite R k = lastWrite D k) → P t' (A ++ D) B'
  maint : ∀ {t t' A B}, S.Inv t → P t A B → S.maint t t' → P t' A B
  reopen : ∀ {t A B}, S.Inv t → P t A B → P (S.reopen t) A B

/-- What every operation keeps holds of the flushed part of the history alone, as long as only synced
    records are flushed. -/
theorem PReach.inv_with {P : S.T → List (Rec K) → List (Rec K) → Prop} (hP : TablePred S P) {p : PDB K S}
    {h : List (Rec K)} {n : Nat} (hr : PReach p h n) :
    ∃ A B, h = A ++ B ∧ PInv p n A B ∧ P p.db.table A [] := by
  have key : ∀ A B, h = A ++ B → LogInv p.db.log A B → P p.db.table A [] := by
    refine PReach.induct (P := fun db h => ∀ A B, h = A ++ B → LogInv db.log A B → P db.table A []) ?_ ?_ ?_ hr
    · intro cfg _ A B e _
      have := List.append_eq_nil_iff.1 e.symm
      rw [this.1]; exact hP.init
    · intro db db' cs cs' h n n' A B N hr hi e hr' hf ih A' B' e' hl'
      have hl := hi.inv.log
      have ih := ih A B e hl
      rw [e] at e'
      cases hf with
      | write hw ht =>
        have hB' : B' = B ++ N := by rw [hl'.pend, hl.pend]; exact hw.pend
        have hA' : A' = A := by
          rw [hB', ← List.append_assoc] at e'
          exact (List.append_cancel_right (List.append_cancel_right e')).symm
        rw [hA', ht]; exact ih
      | touch ht htab =>
        obtain ⟨-, -, φ, h1, h2⟩ := ht
        have hB' : B' = B := by
          rw [hl'.pend, hl.pend, h1, List.flatMap_map]
          apply flatMap_congr_mem
          intro f hf
          obtain ⟨-, a, -, b, -⟩ := h2 f hf
          unfold LogFile.pending; rw [a, b]
        have hA' : A' = A := by
          rw [hB', List.append_nil] at e'; exact (List.append_cancel_right e').symm
        rw [hA', htab]; exact ih
      | @flush o P0 g Q s hF hlog htab =>
        obtain ⟨g', hg', hrel, hfl, hsN, hgat, hB⟩ := hF.exact hl
        have hfiles' : db'.log.files = g' :: Q := by rw [hlog]; unfold LogMgr.flushed; rw [← hg']
        have hB' : B' = g'.pending ++ Q.flatMap LogFile.pending := by rw [hl'.pend, hfiles']; rfl
        have hA' : A' = A ++ LogMgr.gather s o.beyondLastSync (P0 ++ [g]) := by
          rw [List.append_nil, hB', hB, ← List.append_assoc A] at e'
          exact (List.append_cancel_right e').symm
        have hinc : Increasing A' := (List.pairwise_append.1 hl'.inc).1
        rw [hA'] at hinc ⊢
        have hw := hP.write (LogMgr.gather s o.beyondLastSync (P0 ++ [g]) ++ []) ih
        rw [List.nil_append] at hw
        refine hP.flush _ hi.inv.table hw (by rw [List.append_nil]; exact hinc) (List.pairwise_append.1 hinc).2.1
          (fun r hr => by rw [List.append_nil]; exact hr) htab (fun k _ => rfl)
      | maint hlog hm =>
        have hB' : B' = B := by rw [hl'.pend, hl.pend, hlog]
        have hA' : A' = A := by
          rw [hB', List.append_nil] at e'; exact (List.append_cancel_right e').symm
        rw [hA']; exact hP.maint hi.inv.table ih hm
    · intro db cs h n A B cfg d q hr hi e hd ih A' B' e' hl'
      obtain ⟨e1, hi1⟩ := hi.reopen hd
      have hB : cutAt q B = B' := by rw [hi1.inv.log.pend, hl'.pend]
      have hA : A = A' := by
        rw [e, ← e1, hB] at e'; exact List.append_cancel_right e'
      subst hA
      show P (S.reopen d.table) A []
      rw [hd.table]
      exact hP.reopen hi.inv.table (ih A B e hi.inv.log)
  obtain ⟨A, B, e, hi⟩ := hr.inv
  exact ⟨A, B, e, hi, key A B e hi.inv.log⟩

/-- Every reachable state satisfies the invariant, and what every operation keeps. -/
theorem Reach.inv_with {P : S.T → List (Rec K) → List (Rec K) → Prop} (hP : TablePred S P) {db : DB K S}
    {h : List (Rec K)} (hr : Reach db h) :
    ∃ A B, h = A ++ B ∧ DBInv db A B ∧ P db.table A B := by
  induction hr with
  | init c hc => exact ⟨[], [], rfl, DBInv.init c hc, hP.init⟩
  | session hp =>
    obtain ⟨A, B, e, hi, h1⟩ := hp.inv_with hP
    exact ⟨A, B, e, hi.inv, by simpa using hP.write B h1⟩
  | @set db h r se db' _ hfit hseq hse hs ih =>
    obtain ⟨A, B, rfl, hi, hp'⟩ := ih
    have hck : db.check .write = .ok := by
      unfold DB.setRecord at hs
      split at hs
      · next hc => exact absurd (congrArg Prod.fst hs) hc
      · next hc => simpa using hc
    have h0 : r.seq ≠ 0 := by
      intro e
      unfold DB.setRecord LogMgr.setSN at hs
      rw [hck] at hs
      simp [hi.log.rw, e] at hs
    obtain ⟨db'', hs', hi', -⟩ := hi.set r se hfit hseq h0 hse hck
    have ht := DB.setRecord_table hs
    rw [hs] at hs'; cases hs'
    exact ⟨A, _, List.append_assoc _ _ _, hi', by rw [ht]; exact hP.write _ hp'⟩
  | @setRefused db h r se st db' _ hs hst ih =>
    obtain ⟨A, B, rfl, hi, hp'⟩ := ih
    refine ⟨A, B, rfl, ?_, by rw [DB.setRecord_table hs]; exact hp'⟩
    unfold DB.setRecord at hs
    split at hs
    · cases hs; exact hi
    · obtain ⟨-, hd⟩ := Prod.ext_iff.1 hs
      obtain ⟨hd1, -⟩ := Prod.ext_iff.1 hs
      simp only at hd hd1
      have e := hi.log.setSN_refused r se (Prod.ext hd1 rfl) hst
      rw [← hd]
      have hh := hi.ofLog (l' := (db.log.setSN r se).snd) (by rw [show (db.log.setSN r se).snd = db.log from e]; exact hi.log)
        (by rw [show (db.log.setSN r se).snd = db.log from e]) (by rw [show (db.log.setSN r se).snd = db.log from e])
      exact hh
  | @batch db h b db' _ hfit hN hs ih =>
    obtain ⟨A, B, rfl, hi, hp'⟩ := ih
    have hck : db.check .write = .ok := by
      unfold DB.setRecordBatch at hs
      split at hs
      · next hc => exact absurd (congrArg Prod.fst hs) hc
      · next hc => simpa using hc
    rcases hi.batch b hfit hN hck with ⟨-, -, db'', hs', hi', -⟩ | ⟨-, hs'⟩
    · have ht := DB.setRecordBatch_table hs
      rw [hs] at hs'; cases hs'
      exact ⟨A, _, List.append_assoc _ _ _, hi', by rw [ht]; exact hP.write _ hp'⟩
    · rw [hs] at hs'
      have := congrArg Prod.fst hs'
      simp only at this
      split at this <;> cases this
  | @batchRefused db h b st db' _ hfit hN hs hst ih =>
    obtain ⟨A, B, rfl, hi, hp'⟩ := ih
    refine ⟨A, B, rfl, ?_, by rw [DB.setRecordBatch_table hs]; exact hp'⟩
    by_cases hck : db.check .write = .ok
    · rcases hi.batch b hfit hN hck with ⟨-, -, db'', hs', hi', -⟩ | ⟨-, hs'⟩
      · rw [hs] at hs'; cases hs'; exact absurd rfl hst
      · rw [hs] at hs'
        have := congrArg Prod.snd hs'
        simp only at this
        rw [this]; exact hi
    · unfold DB.setRecordBatch at hs
      rw [if_pos hck] at hs; cases hs; exact hi
  | sync _ hs ih => obtain ⟨A, B, e, hi, hp'⟩ := ih; exact ⟨A, B, e, (hi.sync hs).1, by rw [DB.sync_table hs]; exact hp'⟩
  | flush o n _ hp hn hs ih =>
    obtain ⟨A, B, e, hi, hp'⟩ := ih
    obtain ⟨-, D, B', e', hi', -, -, R, cps, f1, f2, f3, f4⟩ := hi.flush hp hn hs
    have hinc := hi.log.inc
    subst e'
    exact ⟨A ++ D, B', by rw [e, List.append_assoc], hi', hP.flush cps hi.table hp' hinc f1 f2 f3 f4⟩
  | checkpoint _ hs ih => obtain ⟨A, B, e, hi, hp'⟩ := ih; exact ⟨A, B, e, (hi.checkpoint hs).1, by rw [DB.checkpoint_table hs]; exact hp'⟩
  | maint _ ht ih => obtain ⟨A, B, e, hi, hp'⟩ := ih; exact ⟨A, B, e, hi.maint ht, hP.maint hi.table hp' ht⟩
  | flags c r _ ih =>
    obtain ⟨A, B, e, hi, hp'⟩ := ih
    exact ⟨A, B, e, ⟨hi.log, hi.table, hi.mode, hi.old, hi.max0, hi.maxS, hi.pos⟩, hp'⟩

/-- Every reachable state satisfies the invariant. -/
theorem Reach.inv {db : DB K S} {h : List (Rec K)} (hr : Reach db h) :
    ∃ A B, h = A ++ B ∧ DBInv db A B := by
  obtain ⟨A, B, h1, h2, -⟩ := hr.inv_with (P := fun _ _ _ => True)
    ⟨trivial, fun _ _ => trivial, fun _ _ _ _ _ _ _ _ => trivial, fun _ _ _ => trivial, fun _ _ => trivial⟩
  exact ⟨A, B, h1, h2⟩

/-- In every reachable state, what the log files hold was accepted. -/
theorem Reach.kept {db : DB K S} {h : List (Rec K)} (hr : Reach db h) : db.log.Kept h := by
  induction hr with
  | session hp =>
    obtain ⟨A, B, hh, hi⟩ := hp.inv
    obtain ⟨D, e⟩ := hi.ext.flat
    intro f hf r hr
    have : r ∈ A ++ B := by rw [e]; exact List.mem_append_right _ (List.mem_flatMap.2 ⟨f, hf, hr⟩)
    rw [hh]; exact this
  | init c hc =>
    intro f hf r hr
    simp only [DB.init, LogMgr.init, List.mem_singleton] at hf
    subst hf; cases hr
  | @set db h r se db' hr0 hfit hseq hse hs ih =>
    obtain ⟨A, B, rfl, hi⟩ := hr0.inv
    have hck : db.check .write = .ok := by
      unfold DB.setRecord at hs
      split at hs
      · next hc => exact absurd (congrArg Prod.fst hs) hc
      · next hc => simpa using hc
    have h0 : r.seq ≠ 0 := by
      intro e
      unfold DB.setRecord LogMgr.setSN at hs
      rw [hck] at hs
      simp [hi.log.rw, e] at hs
    obtain ⟨db'', hs', hi', -, -, hp⟩ := hi.set r se hfit hseq h0 hse hck
    rw [hs] at hs'; cases hs'
    intro f hf x hx
    rcases hp.recs hi.log hf hx with ⟨g, hg, hx'⟩ | ⟨g, hg, hx'⟩
    · exact List.mem_append_left _ (ih g hg x hx')
    · rw [List.append_assoc]
      refine List.mem_append_right _ ?_
      rw [hi'.log.pend]
      exact List.mem_flatMap.2 ⟨g, hg, hx'⟩
  | @setRefused db h r se st db' hr0 hs hst ih =>
    obtain ⟨A, B, rfl, hi⟩ := hr0.inv
    unfold DB.setRecord at hs
    split at hs
    · cases hs; exact ih
    · obtain ⟨hd1, hd⟩ := Prod.ext_iff.1 hs
      simp only at hd hd1
      have e := hi.log.setSN_refused r se (Prod.ext hd1 rfl) hst
      rw [← hd]
      show (db.log.setSN r se).snd.Kept _
      rw [show (db.log.setSN r se).snd = db.log from e]; exact ih
  | @batch db h b db' hr0 hfit hN hs ih =>
    obtain ⟨A, B, rfl, hi⟩ := hr0.inv
    have hck : db.check .write = .ok := by
      unfold DB.setRecordBatch at hs
      split at hs
      · next hc => exact absurd (congrArg Prod.fst hs) hc
      · next hc => simpa using hc
    rcases hi.batch b hfit hN hck with ⟨-, -, db'', hs', hi', -, hp⟩ | ⟨-, hs'⟩
    · rw [hs] at hs'; cases hs'
      intro f hf x hx
      rcases hp.recs.2 hi.log hf hx with ⟨g, hg, hx'⟩ | ⟨g, hg, hx'⟩
      · exact List.mem_append_left _ (ih g hg x hx')
      · rw [List.append_assoc]
        refine List.mem_append_right _ ?_
        rw [hi'.log.pend]
        exact List.mem_flatMap.2 ⟨g, hg, hx'⟩
    · rw [hs] at hs'
      have := congrArg Prod.fst hs'
      simp only at this
      split at this <;> cases this
  | @batchRefused db h b st db' hr0 hfit hN hs hst ih =>
    obtain ⟨A, B, rfl, hi⟩ := hr0.inv
    by_cases hck : db.check .write = .ok
    · rcases hi.batch b hfit hN hck with ⟨-, -, db'', hs', hi', -⟩ | ⟨-, hs'⟩
      · rw [hs] at hs'; cases hs'; exact absurd rfl hst
      · rw [hs] at hs'
        have := congrArg Prod.snd hs'
        simp only at this
        rw [this]; exact ih
    · unfold DB.setRecordBatch at hs
      rw [if_pos hck] at hs; cases hs; exact ih
  | sync _ hs ih =>
    unfold DB.sync at hs
    split at hs
    · cases hs; exact ih
    · have := congrArg Prod.snd hs; simp only at this; rw [← this]; exact Kept.sync ih
  | @flush db h o n st db' hr0 hp hn hs ih =>
    obtain ⟨A, B, rfl, hi⟩ := hr0.inv
    unfold DB.flushLogs at hs
    split at hs
    · cases hs; exact ih
    · rw [if_neg (by simp [hi.mode])] at hs
      simp only at hs
      rcases hi.log.flush_shape o n (hi.flushOk hn) hp db.table S.setBatch with ⟨⟨e, he, -, -⟩, -⟩ | ⟨P, g, Q, s, h1, -, -, -, -, -, he⟩
      · rw [he] at hs; cases hs; exact ih
      · rw [he] at hs
        have := congrArg Prod.snd hs
        simp only at this
        rw [← this]
        intro f hf r hr
        have hf' : f ∈ ((if o.beyondLastSync = true then g.setSyncedSeqNum s else g).setFlushedSeqNum s) :: Q := hf
        rcases List.mem_cons.1 hf' with h2 | h2
        · refine ih g (by rw [h1]; simp) r ?_
          rw [h2, setFlushed_bySeq] at hr
          split at hr
          · rwa [setSynced_bySeq] at hr
          · exact hr
        · exact ih f (by rw [h1]; simp [h2]) r hr
  | checkpoint _ hs ih =>
    unfold DB.checkpoint at hs
    have := congrArg (fun x => x.2.1) hs
    simp only at this; rw [← this]
    exact Kept.sync (Kept.checkpoint ih)
  | maint _ ht ih => exact ih
  | flags c r _ ih => exact ih

end Jungle
