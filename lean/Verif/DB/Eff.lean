/-
  What one call does to the log files and to the tables, call by call, in a form that is easy to
  carry further invariants through.
-/
import Verif.DB.Kept
import Verif.DB.Snap

set_option linter.unusedSectionVars false

namespace Jungle
open Spec
variable {K : Type} [LinearOrder K]

/-! ### checkpoints of a log file do not change by writing it out -/

theorem maybeClose_chk (f : LogFile K) : f.maybeClose.mem.checkpoints = f.mem.checkpoints := by
  unfold LogFile.maybeClose; split <;> rfl

theorem flushMemTable_chk (f : LogFile K) (u : Nat) : (f.flushMemTable u).1.mem.checkpoints = f.mem.checkpoints := by
  unfold LogFile.flushMemTable
  split
  · rfl
  · have e1 : (if f.fOpen = true then f else { f with fOpen := true, integrity := .unknown }).mem.checkpoints = f.mem.checkpoints := by
      split <;> rfl
    generalize (if f.fOpen = true then f else { f with fOpen := true, integrity := .unknown }) = f1 at e1 ⊢
    simp only []
    have e2 : (if f1.integrity = .unknown then { f1 with integrity := if f1.torn = true then .corrupted else .valid } else f1).mem.checkpoints = f.mem.checkpoints := by
      rw [← e1]; split <;> rfl
    generalize (if f1.integrity = .unknown then { f1 with integrity := if f1.torn = true then .corrupted else .valid } else f1) = f2 at e2 ⊢
    split
    · exact e2
    · split
      · rw [maybeClose_chk]; exact e2
      · rw [maybeClose_chk]; exact e2

theorem setSynced_chk (f : LogFile K) (s : Nat) : (f.setSyncedSeqNum s).mem.checkpoints = f.mem.checkpoints := by
  unfold LogFile.setSyncedSeqNum; split <;> (try split) <;> rfl

theorem setFlushed_chk (f : LogFile K) (s : Nat) : (f.setFlushedSeqNum s).mem.checkpoints = f.mem.checkpoints := by
  unfold LogFile.setFlushedSeqNum; split <;> (try split) <;> rfl

theorem syncFile_chk (b n : Nat) (f : LogFile K) : (LogMgr.syncFile b n f).1.mem.checkpoints = f.mem.checkpoints := by
  unfold LogMgr.syncFile
  generalize (if b ≠ 0 then b else NIL) = u
  simp only []
  split
  · show ((f.flushMemTable u).1.maybeClose.setSyncedSeqNum (f.flushMemTable u).2).mem.checkpoints = _
    rw [setSynced_chk, maybeClose_chk, flushMemTable_chk]
  · rw [setSynced_chk, maybeClose_chk, flushMemTable_chk]

/-! ### effects on the log -/

/-- The log after marks on its files changed; no record comes or goes. -/
def Touched (l l' : LogMgr K) : Prop :=
  l'.maxNum = l.maxNum ∧ l'.getMaxSeqNum = l.getMaxSeqNum ∧ ∃ φ : LogFile K → LogFile K, l'.files = l.files.map φ ∧
    ∀ f ∈ l.files, (φ f).num = f.num ∧ (φ f).mem.bySeq = f.mem.bySeq ∧ (φ f).mem.maxSeqNum = f.mem.maxSeqNum ∧
      (φ f).mem.flushedSeqNum = f.mem.flushedSeqNum ∧
      ((φ f).mem.checkpoints = f.mem.checkpoints ∨
        (f.mem.maxSeqNum ≠ NIL ∧ f.mem.checkpoints.getLast? ≠ some f.mem.maxSeqNum ∧
          (φ f).mem.checkpoints = f.mem.checkpoints ++ [f.mem.maxSeqNum]))

theorem Touched.refl (l : LogMgr K) : Touched l l :=
  ⟨rfl, rfl, id, by simp, fun _ _ => ⟨rfl, rfl, rfl, rfl, Or.inl rfl⟩⟩

variable {S : TableSys K}

/-- The effect of one call on log and tables; `N` are the records it adds to the history. -/
inductive Eff (db : DB K S) (A B : List (Rec K)) : DB K S → List (Rec K) → Prop
  | write {db' N} : Wrote db.log db'.log N → db'.table = db.table → Eff db A B db' N
  | touch {db'} : Touched db.log db'.log → db'.table = db.table → Eff db A B db' []
  | flush {db' : DB K S} {o P g Q s} : Flushing db o A B P Q g s →
      db'.log = db.log.flushed o s g Q →
      db'.table = (if LogMgr.gather s o.beyondLastSync (P ++ [g]) = [] then db.table
        else S.setBatch db.table (LogMgr.gather s o.beyondLastSync (P ++ [g])) (LogMgr.gatherCheckpoints s (P ++ [g]))) →
      Eff db A B db' []
  | maint {db'} : db'.log = db.log → S.maint db.table db'.table → Eff db A B db' []

theorem Eff.same {db : DB K S} {A B} {db' : DB K S} (h : db' = db) : Eff db A B db' [] := by
  subst h; exact Eff.touch (Touched.refl _) rfl

theorem PInv.touched_sync {db : DB K S} {cs : List PMani} {n : Nat} {A B : List (Rec K)} (h : PInv ⟨db, cs⟩ n A B)
    {st l'} (hs : db.log.sync = (st, l')) : Touched db.log l' := by
  have hl := h.inv.log
  have e := hl.sync_eq h.store
  obtain ⟨l'', e', -, -, hn, -, hm⟩ := hl.sync
  rw [hs] at e e'
  have e1 := congrArg Prod.snd e
  have e2 := congrArg Prod.snd e'
  simp only [] at e1 e2
  subst e2
  refine ⟨by rw [e1], hm, db.log.syncOne, by rw [e1], ?_⟩
  intro f hf
  have hr := hl.syncOne_rel hf
  refine ⟨hr.num, hr.bySeq, hr.max, hr.flushed, Or.inl ?_⟩
  unfold LogMgr.syncOne
  split
  · exact syncFile_chk _ _ _
  · rfl

theorem LogInv.touched_mark {l : LogMgr K} {A B} (h : LogInv l A B) : Touched l l.checkpoint.1 := by
  obtain ⟨fs, f, hf⟩ := h.split_last
  have hff : f ∈ l.files := by rw [hf]; simp
  have hfi : l.file? l.maxNum = some f := by
    rw [← h.last_num hf]; exact h.file?_mem hff
  obtain ⟨-, -, -, hn, -, hm⟩ := h.checkpoint
  refine ⟨?_, hm, ?_⟩
  · unfold LogMgr.checkpoint; simp only [hfi]; rfl
  refine ⟨fun g => if g.num == f.num then { f with mem := f.mem.checkpoint.1, coldChk := f.coldChk || f.immutable } else g, ?_, ?_⟩
  · unfold LogMgr.checkpoint; simp only [hfi]; rfl
  · intro x hx
    simp only []
    split
    · next e =>
      have hxf : x = f := by
        have h1 := h.file?_mem hx
        have h2 := h.file?_mem hff
        rw [show x.num = f.num by simpa using e] at h1
        exact Option.some.inj (h1.symm.trans h2)
      subst hxf
      unfold MemTable.checkpoint
      split
      · exact ⟨rfl, rfl, rfl, rfl, Or.inl rfl⟩
      · next hne =>
        split
        · exact ⟨rfl, rfl, rfl, rfl, Or.inl rfl⟩
        · next hc => exact ⟨rfl, rfl, rfl, rfl, Or.inr ⟨hne, hc, rfl⟩⟩
    · exact ⟨rfl, rfl, rfl, rfl, Or.inl rfl⟩

theorem Touched.trans {l l1 l2 : LogMgr K} (h : Touched l l1) (h' : Touched l1 l2)
    (hk : ∀ f1 ∈ l1.files, ∀ f2 ∈ l2.files, f2.num = f1.num → f2.mem.checkpoints = f1.mem.checkpoints) :
    Touched l l2 := by
  obtain ⟨h1, h2, φ, h3, h4⟩ := h
  obtain ⟨g1, g2, ψ, g3, g4⟩ := h'
  refine ⟨g1.trans h1, g2.trans h2, ψ ∘ φ, by rw [g3, h3, List.map_map], ?_⟩
  intro f hf
  obtain ⟨a1, a2, a3, a4, a5⟩ := h4 f hf
  have hm : φ f ∈ l1.files := by rw [h3]; exact List.mem_map_of_mem hf
  obtain ⟨b1, b2, b3, b4, -⟩ := g4 (φ f) hm
  have hc := hk (φ f) hm (ψ (φ f)) (by rw [g3]; exact List.mem_map_of_mem hm) b1
  refine ⟨b1.trans a1, b2.trans a2, b3.trans a3, b4.trans a4, ?_⟩
  simp only [Function.comp]
  rw [hc]; exact a5

/-- The effects of calls other than maintenance of tables. -/
def EffP (db : DB K S) (A B : List (Rec K)) (db' : DB K S) (N : List (Rec K)) : Prop :=
  Eff db A B db' N ∧ (db'.table = db.table ∨ ∃ R cps, db'.table = S.setBatch db.table R cps)

theorem EffP.write {db : DB K S} {A B} {db' : DB K S} {N} (h : Wrote db.log db'.log N) (ht : db'.table = db.table) :
    EffP db A B db' N := ⟨Eff.write h ht, Or.inl ht⟩

theorem EffP.touch {db : DB K S} {A B} {db' : DB K S} (h : Touched db.log db'.log) (ht : db'.table = db.table) :
    EffP db A B db' [] := ⟨Eff.touch h ht, Or.inl ht⟩

theorem EffP.same {db : DB K S} {A B} {db' : DB K S} (h : db' = db) : EffP db A B db' [] := by
  subst h; exact ⟨Eff.same rfl, Or.inl rfl⟩

theorem EffP.flush {db : DB K S} {A B} {db' : DB K S} {o P g Q s} (h : Flushing db o A B P Q g s)
    (hl : db'.log = db.log.flushed o s g Q)
    (ht : db'.table = (if LogMgr.gather s o.beyondLastSync (P ++ [g]) = [] then db.table
        else S.setBatch db.table (LogMgr.gather s o.beyondLastSync (P ++ [g])) (LogMgr.gatherCheckpoints s (P ++ [g])))) :
    EffP db A B db' [] := by
  refine ⟨Eff.flush h hl ht, ?_⟩
  rw [ht]; split
  · exact Or.inl rfl
  · exact Or.inr ⟨_, _, rfl⟩

/-- The same effects, one by one. -/
inductive EffC (db : DB K S) (A B : List (Rec K)) : DB K S → List (Rec K) → Prop
  | write {db' N} : Wrote db.log db'.log N → db'.table = db.table → EffC db A B db' N
  | touch {db'} : Touched db.log db'.log → db'.table = db.table → EffC db A B db' []
  | flush {db' : DB K S} {o P g Q s} : Flushing db o A B P Q g s →
      db'.log = db.log.flushed o s g Q →
      db'.table = (if LogMgr.gather s o.beyondLastSync (P ++ [g]) = [] then db.table
        else S.setBatch db.table (LogMgr.gather s o.beyondLastSync (P ++ [g])) (LogMgr.gatherCheckpoints s (P ++ [g]))) →
      EffC db A B db' []

theorem EffC.same {db : DB K S} {A B} {db' : DB K S} (h : db' = db) : EffC db A B db' [] := by
  subst h; exact EffC.touch (Touched.refl _) rfl

theorem EffC.effP {db : DB K S} {A B} {db' : DB K S} {N} (h : EffC db A B db' N) : EffP db A B db' N := by
  cases h with
  | write h ht => exact EffP.write h ht
  | touch h ht => exact EffP.touch h ht
  | flush h hl ht => exact EffP.flush h hl ht

theorem Act.effC {db db' : DB K S} {h h' : List (Rec K)} (ha : Act db h db' h') {cs : List PMani} {n : Nat}
    {A B : List (Rec K)} (hi : PInv ⟨db, cs⟩ n A B) (_ : h = A ++ B) :
    ∃ N, EffC db A B db' N ∧ h' = h ++ N := by
  cases ha with
  | set r se hfit hseq hse hs =>
    have hck : db.check .write = .ok := by
      unfold DB.setRecord at hs
      split at hs
      · next hc => exact absurd (congrArg Prod.fst hs) hc
      · next hc => simpa using hc
    have h0 : r.seq ≠ 0 := by
      intro e
      unfold DB.setRecord LogMgr.setSN at hs
      rw [hck] at hs
      have hrw : db.log.cfg.readOnly = false := hi.inv.log.rw
      simp [hrw, e] at hs
    obtain ⟨db'', hs', hi', -, he, hp⟩ := hi.inv.set r se hfit hseq h0 hse hck
    simp only at hs'
    rw [hs] at hs'; cases hs'
    obtain ⟨x, hx⟩ := hp.wrote hi.inv.log hi'.log
    have := hx.pend
    rw [← hi'.log.pend, ← hi.inv.log.pend] at this
    refine ⟨[x], EffC.write hx (by rw [he]), ?_⟩
    rw [List.append_cancel_left this]
  | setRefused r se hs hst =>
    refine ⟨[], EffC.same ?_, by simp⟩
    unfold DB.setRecord at hs
    split at hs
    · cases hs; rfl
    · obtain ⟨hd1, hd⟩ := Prod.ext_iff.1 hs
      simp only at hd hd1
      have e := hi.inv.log.setSN_refused r se (Prod.ext hd1 rfl) hst
      rw [← hd, show (db.log.setSN r se).snd = db.log from e]
  | batch b hfit hN hs =>
    have hck : db.check .write = .ok := by
      unfold DB.setRecordBatch at hs
      split at hs
      · next hc => exact absurd (congrArg Prod.fst hs) hc
      · next hc => simpa using hc
    rcases hi.inv.batch b hfit hN hck with ⟨-, -, db'', hs', hi', he, hp⟩ | ⟨-, hs'⟩
    · simp only at hs'
      rw [hs] at hs'; cases hs'
      obtain ⟨N, hx⟩ := hp.wrote hi.inv.log
      have := hx.pend
      rw [← hi'.log.pend, ← hi.inv.log.pend] at this
      refine ⟨N, EffC.write hx (by rw [he]), ?_⟩
      rw [List.append_cancel_left this]
    · simp only at hs'
      rw [hs] at hs'
      have := congrArg Prod.fst hs'
      simp only at this
      split at this <;> cases this
  | batchRefused b hfit hN hs hst =>
    refine ⟨[], EffC.same ?_, by simp⟩
    by_cases hck : db.check .write = .ok
    · rcases hi.inv.batch b hfit hN hck with ⟨-, -, db'', hs', hi', -⟩ | ⟨-, hs'⟩
      · simp only at hs'
        rw [hs] at hs'; cases hs'; exact absurd rfl hst
      · simp only at hs'
        rw [hs] at hs'
        exact congrArg Prod.snd hs'
    · unfold DB.setRecordBatch at hs
      rw [if_pos hck] at hs; cases hs; rfl
  | @sync st _ hs =>
    refine ⟨[], ?_, by simp⟩
    unfold DB.sync at hs
    split at hs
    · cases hs; exact EffC.same rfl
    · cases hs
      exact EffC.touch (hi.touched_sync (Prod.ext rfl rfl)) rfl
  | @flush o m st _ hp hsafe hs =>
    refine ⟨[], ?_, by simp⟩
    unfold DB.flushLogs at hs
    split at hs
    · cases hs; exact EffC.same rfl
    · rw [if_neg (by have := hi.inv.mode; simp only at this; simp [this])] at hs
      rcases hi.flushing hsafe hp with ⟨⟨e, h1, -⟩, -⟩ | ⟨P, g, Q, s, h1, -, h2⟩
      · simp only [h1] at hs
        cases hs; exact EffC.same rfl
      · simp only [h2] at hs
        cases hs
        exact EffC.flush h1 rfl rfl
  | checkpoint hs =>
    refine ⟨[], ?_, by simp⟩
    unfold DB.checkpoint at hs
    have hs := congrArg (fun x => x.2.1) hs
    simp only at hs
    subst hs
    have hi' := hi.mark
    refine EffC.touch ?_ rfl
    have h2 := hi'.touched_sync (db := { db with log := db.log.checkpoint.1 }) (Prod.ext rfl rfl)
    refine hi.inv.log.touched_mark.trans h2 ?_
    intro f1 hf1 f2 hf2 hn
    have e := hi'.inv.log.sync_eq hi'.store
    have e1 := congrArg Prod.snd e
    simp only [] at e1
    simp only [e1, List.mem_map] at hf2
    obtain ⟨f, hf, rfl⟩ := hf2
    have hr := hi'.inv.log.syncOne_rel hf
    have : f = f1 := by
      have a1 := hi'.inv.log.file?_mem hf
      have a2 := hi'.inv.log.file?_mem hf1
      rw [show f.num = f1.num from hr.num.symm.trans hn] at a1
      exact Option.some.inj (a1.symm.trans a2)
    subst this
    unfold LogMgr.syncOne
    split
    · exact syncFile_chk _ _ _
    · rfl
  | flags cl r => exact ⟨[], EffC.touch (Touched.refl _) rfl, by simp⟩

theorem Act.effP {db db' : DB K S} {h h' : List (Rec K)} (ha : Act db h db' h') {cs : List PMani} {n : Nat}
    {A B : List (Rec K)} (hi : PInv ⟨db, cs⟩ n A B) (e : h = A ++ B) :
    ∃ N, EffP db A B db' N ∧ h' = h ++ N := by
  obtain ⟨N, h1, h2⟩ := ha.effC hi e
  exact ⟨N, h1.effP, h2⟩

theorem Act.eff {db db' : DB K S} {h h' : List (Rec K)} (ha : Act db h db' h') {cs : List PMani} {n : Nat}
    {A B : List (Rec K)} (hi : PInv ⟨db, cs⟩ n A B) (hh : h = A ++ B) : ∃ N, Eff db A B db' N ∧ h' = h ++ N := by
  obtain ⟨N, h1, h2⟩ := ha.effP hi hh
  exact ⟨N, h1.1, h2⟩

/-- A call either leaves the tables alone or hands them a batch. -/
theorem Act.table {db db' : DB K S} {h h' : List (Rec K)} (ha : Act db h db' h') {cs : List PMani} {n : Nat}
    {A B : List (Rec K)} (hi : PInv ⟨db, cs⟩ n A B) (hh : h = A ++ B) :
    db'.table = db.table ∨ ∃ R cps, db'.table = S.setBatch db.table R cps := by
  obtain ⟨N, h1, -⟩ := ha.effP hi hh
  exact h1.2

/-- What a flush hands to the tables: the checkpoints are numbers of its records. -/
theorem Flushing.exact {db : DB K S} {o A B P Q g s} (hF : Flushing db o A B P Q g s)
    (hl : LogInv db.log A B) : ∃ g', g' = (if o.beyondLastSync = true then g.setSyncedSeqNum s else g).setFlushedSeqNum s ∧
      FlushRel s o.beyondLastSync g g' ∧ g'.mem.flushedSeqNum = s ∧ s ≠ NIL ∧
      LogMgr.gather s o.beyondLastSync (P ++ [g]) = P.flatMap LogFile.pending ++ g.moved g' ∧
      B = LogMgr.gather s o.beyondLastSync (P ++ [g]) ++ (g'.pending ++ Q.flatMap LogFile.pending) := by
  refine ⟨_, rfl, hF.rel, ?_, ?_, hl.gather_exact hF.files hF.safe hF.rel hF.cov hF.sync, ?_⟩
  · rcases hF.safe with ⟨h1, h2, h3⟩ | ⟨h1, h2, h3⟩
    · rw [hF.rel.val h1 h2]; exact Nat.min_eq_left h3
    · rw [hF.rel.valB h1 h2]; exact Nat.min_eq_left (by omega)
  · have hg : g ∈ db.log.files := by rw [hF.files]; simp
    have hw := hl.wf g hg
    rcases hF.safe with ⟨h1, h2, h3⟩ | ⟨h1, h2, h3⟩
    · have := hw.synced
      rcases this with h | h
      · exact absurd h h2
      · omega
    · rw [h3]; exact h2
  · rw [hl.gather_exact hF.files hF.safe hF.rel hF.cov hF.sync, hl.pend, hF.files, List.flatMap_append, List.flatMap_cons,
      pending_split (hl.wf g (by rw [hF.files]; simp)) hF.rel]
    simp only [List.append_assoc]

/-- Induction over everything that leads to a state: the effects are those of `Eff`. -/
theorem PReach.induct {P : DB K S → List (Rec K) → Prop}
    (init : ∀ c : Cfg, c.Plain → P (DB.init S c) [])
    (step : ∀ {db db' : DB K S} {cs cs' h n n' A B N}, PReach ⟨db, cs⟩ h n → PInv ⟨db, cs⟩ n A B → h = A ++ B →
      PReach ⟨db', cs'⟩ (h ++ N) n' → Eff db A B db' N → P db h → P db' (h ++ N))
    (again : ∀ {db : DB K S} {cs h n A B cfg d q}, PReach ⟨db, cs⟩ h n → PInv ⟨db, cs⟩ n A B → h = A ++ B →
      Reopens db cs cfg d q → P db h → P (DB.reopen cfg d) (h.filter (fun r => decide (r.seq ≤ q))))
    {p : PDB K S} {h : List (Rec K)} {n : Nat} (hr : PReach p h n) : P p.db h := by
  have go : ∀ {db db' : DB K S} {cs cs' h h' n n'}, PReach ⟨db, cs⟩ h n → PReach ⟨db', cs'⟩ h' n' → Act db h db' h' →
      P db h → P db' h' := by
    intro db db' cs cs' h h' n n' hr hr' ha hP
    obtain ⟨A, B, e, hi⟩ := hr.inv
    obtain ⟨N, h1, h2⟩ := ha.eff hi e
    subst h2
    exact step hr hi e hr' h1 hP
  induction hr with
  | init c hc => exact init c hc
  | set r se hr h1 h2 h3 h4 ih => exact go hr (PReach.set r se hr h1 h2 h3 h4) (Act.set r se h1 h2 h3 h4) ih
  | setRefused r se hr h1 h2 ih => exact go hr (PReach.setRefused r se hr h1 h2) (Act.setRefused r se h1 h2) ih
  | batch b hr h1 h2 h3 ih => exact go hr (PReach.batch b hr h1 h2 h3) (Act.batch b h1 h2 h3) ih
  | batchRefused b hr h1 h2 h3 h4 ih =>
    exact go hr (PReach.batchRefused b hr h1 h2 h3 h4) (Act.batchRefused b h1 h2 h3 h4) ih
  | sync hr h1 ih => exact go hr (PReach.sync hr h1) (Act.sync h1) ih
  | syncRefused hr h1 h2 ih => exact go hr (PReach.syncRefused hr h1 h2) (Act.sync h1) ih
  | @syncSkip db h n cs l' hr h1 h2 h3 ih =>
    obtain ⟨A, B, e, hi⟩ := hr.inv
    have := step (N := []) (db' := { db with log := l' }) hr hi e
      (by rw [List.append_nil]; exact PReach.syncSkip hr h1 h2 h3) (Eff.touch (hi.touched_sync h3) rfl) ih
    rwa [List.append_nil] at this
  | @syncOff db h n cs l' hr h1 h2 h3 ih =>
    obtain ⟨A, B, e, hi⟩ := hr.inv
    have := step (N := []) (db' := { db with log := l' }) hr hi e
      (by rw [List.append_nil]; exact PReach.syncOff hr h1 h2 h3) (Eff.touch (hi.touched_sync h3) rfl) ih
    rwa [List.append_nil] at this
  | fewer _ _ _ ih => exact ih
  | flush o m hr h1 h2 h3 ih => exact go hr (PReach.flush o m hr h1 h2 h3) (Act.flush o m h1 h2 h3) ih
  | flushRefused o m hr h1 h2 h3 h4 ih =>
    exact go hr (PReach.flushRefused o m hr h1 h2 h3 h4) (Act.flush o m h1 h2 h3) ih
  | @mark db h n cs hr ih =>
    obtain ⟨A, B, e, hi⟩ := hr.inv
    have := step (N := []) (db' := { db with log := db.log.checkpoint.1 }) hr hi e
      (by rw [List.append_nil]; exact PReach.mark hr) (Eff.touch hi.inv.log.touched_mark rfl) ih
    rwa [List.append_nil] at this
  | checkpoint hr h1 ih => exact go hr (PReach.checkpoint hr h1) (Act.checkpoint h1) ih
  | @maint db h n cs t hr h1 ih =>
    obtain ⟨A, B, e, hi⟩ := hr.inv
    have := step (N := []) (db' := { db with table := t }) hr hi e
      (by rw [List.append_nil]; exact PReach.maint hr h1) (Eff.maint rfl h1) ih
    rwa [List.append_nil] at this
  | flags c r hr ih => exact go hr (PReach.flags c r hr) (Act.flags c r) ih
  | reopen cfg d q hr hd ih =>
    obtain ⟨A, B, e, hi⟩ := hr.inv
    exact again hr hi e hd ih

end Jungle
