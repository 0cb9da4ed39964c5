/-
  The invariant of a handle together with its disk, and what is found after a crash.
-/
import Verif.DB.Crash
import Verif.DB.Lemmas
import Verif.Log.Complete

set_option linter.unusedSectionVars false

namespace Jungle
open Spec
variable {K : Type} [LinearOrder K] {S : TableSys K}

/-- Where the records of the history are, and what the manifests say about the log files. -/
structure XInv (l : LogMgr K) (cs : List PMani) (A B : List (Rec K)) : Prop where
  flat : ∃ D, A ++ B = D ++ l.files.flatMap (·.mem.bySeq)
  mins : ∀ M ∈ cs, ∀ e ∈ M.entries, ∀ f ∈ l.files, e.num = f.num → f.mem.syncedSeqNum ≠ NIL →
    e.min = f.mem.minSeqNum
  max : ∀ M ∈ cs, M.max ≤ l.maxNum ∧ (M.lastSynced = NIL ∨ M.lastSynced ≤ l.maxNum)
  top : ∀ f ∈ l.files, f.Top

theorem XInv.self {l : LogMgr K} {A B} (h : LogInv l A B) (hf : ∃ D, A ++ B = D ++ l.files.flatMap (·.mem.bySeq))
    (ht : ∀ f ∈ l.files, f.Top) : XInv l [l.persist] A B := by
  refine ⟨hf, ?_, ?_, ht⟩
  · intro M hM e he f hf' hn _
    rw [List.mem_singleton] at hM; subst hM
    obtain ⟨g, hg, rfl⟩ := List.mem_map.1 he
    rw [h.same_num hf' hg hn.symm]
  · intro M hM
    rw [List.mem_singleton] at hM; subst hM
    exact ⟨Nat.le_refl _, h.lastS.imp id (fun h => h.2)⟩

theorem XInv.wrote {l l' : LogMgr K} {cs : List PMani} {A B N : List (Rec K)} (x : XInv l cs A B) (hw : Wrote l l' N)
    (hm : ∀ f' ∈ l'.files, f'.mem.syncedSeqNum ≠ NIL → ∃ f ∈ l.files, f.num = f'.num ∧ f.mem.syncedSeqNum ≠ NIL ∧
      f.mem.minSeqNum = f'.mem.minSeqNum) : XInv l' cs A (B ++ N) := by
  refine ⟨?_, ?_, ?_, ?_⟩
  · obtain ⟨D, hD⟩ := x.flat
    exact ⟨D, by rw [hw.flat, ← List.append_assoc, hD, List.append_assoc]⟩
  · intro M hM e he f' hf' hn hs
    obtain ⟨f, g1, g2, g3, g4⟩ := hm f' hf' hs
    rw [← g4]; exact x.mins M hM e he f g1 (hn.trans g2.symm) g3
  · intro M hM
    obtain ⟨a, b⟩ := x.max M hM
    exact ⟨Nat.le_trans a hw.num, b.imp id (fun b => Nat.le_trans b hw.num)⟩
  · intro f' hf'
    rcases hw.files f' hf' with ⟨-, -, h1⟩ | ⟨f, h1, -, -, -, h2⟩
    · exact h1
    · exact h2 (x.top f h1)

theorem XInv.put {l l' : LogMgr K} {cs : List PMani} {A B N : List (Rec K)} (x : XInv l cs A B) (h : LogInv l A B)
    (h' : LogInv l' A (B ++ N)) (hp : PutStep l l') : XInv l' cs A (B ++ N) := by
  obtain ⟨y, hw⟩ := hp.wrote h h'
  have e := hw.pend
  rw [← h'.pend, ← h.pend] at e
  rw [List.append_cancel_left e]
  exact x.wrote hw (fun f' hf' hs => hp.mins h hf' hs)

theorem XInv.puts {l l' : LogMgr K} {cs : List PMani} {A B N : List (Rec K)} (x : XInv l cs A B) (h : LogInv l A B)
    (h' : LogInv l' A (B ++ N)) (hp : PutSteps l l') : XInv l' cs A (B ++ N) := by
  obtain ⟨y, hw⟩ := hp.wrote h
  have e := hw.pend
  rw [← h'.pend, ← h.pend] at e
  rw [List.append_cancel_left e]
  exact x.wrote hw (fun f' hf' hs => hp.mins h hf' hs)

theorem XInv.rotated {l l' : LogMgr K} {cs : List PMani} {A B A' B' : List (Rec K)} (x : XInv l' cs A' B') (h : LogInv l A B)
    (hp : PutStep l l') (hne : l'.maxNum ≠ l.maxNum) : XInv l' (cs ++ [l.rotated]) A' B' := by
  obtain ⟨fs, f, hf⟩ := h.split_last
  have hfi : l.file? l.maxNum = some f := by
    rw [← h.last_num hf]; exact h.file?_mem (by rw [hf]; simp)
  have hr : l.rotated = (l.addNewLogFile f).1.persist := by unfold LogMgr.rotated; rw [hfi]
  have hmax : l'.maxNum = l.maxNum + 1 := by
    cases hp with
    | same => exact absurd rfl hne
    | new => rfl
  refine ⟨x.flat, ?_, ?_, x.top⟩
  · intro M hM e he f' hf' hn hs
    rcases List.mem_append.1 hM with hM | hM
    · exact x.mins M hM e he f' hf' hn hs
    · rw [List.mem_singleton] at hM; subst hM
      obtain ⟨g, g1, g2, g3, g4⟩ := hp.mins h hf' hs
      rw [hr] at he
      simp only [LogMgr.persist, LogMgr.addNewLogFile, List.map_append, List.map_cons, List.map_nil] at he
      rcases List.mem_append.1 he with he | he
      · obtain ⟨g0, hg0, rfl⟩ := List.mem_map.1 he
        rw [← g4, h.same_num hg0 g1 (hn.trans g2.symm)]
      · rw [List.mem_singleton] at he; subst he
        have := (h.num_range g1).2
        have e2 : l.maxNum + 1 = f'.num := hn
        omega
  · intro M hM
    rcases List.mem_append.1 hM with hM | hM
    · exact x.max M hM
    · rw [List.mem_singleton] at hM; subst hM
      rw [hr, hmax]
      refine ⟨Nat.le_refl _, ?_⟩
      rcases h.lastS with h1 | h1
      · exact Or.inl h1
      · exact Or.inr (Nat.le_succ_of_le h1.2)

theorem XInv.mark {l : LogMgr K} {cs : List PMani} {A B : List (Rec K)} (x : XInv l cs A B) (h : LogInv l A B) :
    XInv l.checkpoint.1 cs A B := by
  obtain ⟨fs, f, hf⟩ := h.split_last
  have hff : f ∈ l.files := by rw [hf]; simp
  have hfi : l.file? l.maxNum = some f := by
    rw [← h.last_num hf]; exact h.file?_mem hff
  have hk : f.mem.checkpoint.1.bySeq = f.mem.bySeq ∧ f.mem.checkpoint.1.syncedSeqNum = f.mem.syncedSeqNum ∧
      f.mem.checkpoint.1.minSeqNum = f.mem.minSeqNum ∧ f.mem.checkpoint.1.maxSeqNum = f.mem.maxSeqNum := by
    unfold MemTable.checkpoint
    split
    · exact ⟨rfl, rfl, rfl, rfl⟩
    · split <;> exact ⟨rfl, rfl, rfl, rfl⟩
  have hmap : ∀ g ∈ l.files, (if g.num == f.num then ({ f with mem := f.mem.checkpoint.1, coldChk := f.coldChk || f.immutable } : LogFile K) else g).num = g.num ∧
      (if g.num == f.num then ({ f with mem := f.mem.checkpoint.1, coldChk := f.coldChk || f.immutable } : LogFile K) else g).mem.bySeq = g.mem.bySeq ∧
      (if g.num == f.num then ({ f with mem := f.mem.checkpoint.1, coldChk := f.coldChk || f.immutable } : LogFile K) else g).mem.syncedSeqNum = g.mem.syncedSeqNum ∧
      (if g.num == f.num then ({ f with mem := f.mem.checkpoint.1, coldChk := f.coldChk || f.immutable } : LogFile K) else g).mem.minSeqNum = g.mem.minSeqNum ∧
      (if g.num == f.num then ({ f with mem := f.mem.checkpoint.1, coldChk := f.coldChk || f.immutable } : LogFile K) else g).mem.maxSeqNum = g.mem.maxSeqNum := by
    intro g hg
    split
    · next e =>
      have e : g.num = f.num := by simpa using e
      have := h.same_num hg hff e
      subst this
      exact ⟨rfl, hk⟩
    · exact ⟨rfl, rfl, rfl, rfl, rfl⟩
  have hl : l.checkpoint.1 = l.setFile { f with mem := f.mem.checkpoint.1, coldChk := f.coldChk || f.immutable } := by
    unfold LogMgr.checkpoint; simp only [hfi]
  rw [hl]
  refine ⟨?_, ?_, x.max, ?_⟩
  · obtain ⟨D, hD⟩ := x.flat
    refine ⟨D, ?_⟩
    rw [hD]
    unfold LogMgr.setFile
    simp only [List.flatMap_map]
    rw [flatMap_congr_mem (fun g hg => (hmap g hg).2.1)]
  · intro M hM e he f' hf' hn hs
    unfold LogMgr.setFile at hf'
    obtain ⟨g, hg, rfl⟩ := List.mem_map.1 hf'
    obtain ⟨a1, a2, a3, a4, -⟩ := hmap g hg
    simp only [] at hn hs ⊢
    rw [a4]
    exact x.mins M hM e he g hg (hn.trans a1) (by rw [← a3]; exact hs)
  · intro f' hf'
    unfold LogMgr.setFile at hf'
    obtain ⟨g, hg, rfl⟩ := List.mem_map.1 hf'
    obtain ⟨-, a2, -, -, a5⟩ := hmap g hg
    simp only []
    unfold LogFile.Top
    rw [a2, a5]; exact x.top g hg

/-- `A`: records the tables answer for; `B`: records in the log; the first `n` of them are safe,
    whichever manifest is found. -/
structure PInv (p : PDB K S) (n : Nat) (A B : List (Rec K)) : Prop where
  inv : DBInv p.db A B
  tab : ∀ k, vis (S.get p.db.table k) = valueOf A k
  store : SInv p.db.log
  ne : p.cands ≠ []
  nle : n ≤ (A ++ B).length
  cand : ∀ M ∈ p.cands, ∃ F G, ManiLists p.db.log M F G ∧
    ∀ r ∈ (A ++ B).take n, r ∈ A ++ F.flatMap LogFile.stored
  ext : XInv p.db.log p.cands A B

/-- Following the list of files through a change. -/
theorem ManiLists.move {l l' : LogMgr K} {M F G} (h : ManiLists l M F G) (φ : LogFile K → LogFile K)
    (N : List (LogFile K)) (hf : l'.files = l.files.map φ ++ N)
    (hφ : ∀ f ∈ l.files, (φ f).num = f.num ∧ (φ f).mem.flushedSeqNum = f.mem.flushedSeqNum)
    (hlf : l'.lastFlushed = l.lastFlushed) (hls : l'.lastSynced = l.lastSynced)
    (hN : l.lastSynced ≠ NIL → ∀ f ∈ N, l.lastSynced < f.num) : ManiLists l' M (F.map φ) (G.map φ ++ N) := by
  have hF := fun f (hf : f ∈ F) => hφ f (h.sub hf)
  refine ⟨by rw [hf, h.files]; simp, by simp [h.ne], ?_, h.lastF.trans hlf.symm, ?_, h.maxN, ?_⟩
  · rw [h.ent, List.map_map]
    apply List.map_congr_left
    intro f hf
    show _ = ((φ f).num, (φ f).mem.flushedSeqNum)
    rw [(hF f hf).1, (hF f hf).2]
  · intro x hx
    obtain ⟨f, hf, rfl⟩ := List.mem_map.1 hx
    rw [(hF f hf).1]; exact h.max f hf
  · rw [hls]
    intro hne x hx
    rcases List.mem_append.1 hx with hx | hx
    · obtain ⟨f, hf, rfl⟩ := List.mem_map.1 hx
      rw [(hφ f (by rw [h.files]; simp [hf])).1]; exact h.cov hne f hf
    · exact hN hne x hx

theorem flatMap_stored_map {F : List (LogFile K)} {φ : LogFile K → LogFile K}
    (h : ∀ f ∈ F, (φ f).stored = f.stored) : (F.map φ).flatMap LogFile.stored = F.flatMap LogFile.stored := by
  rw [List.flatMap_map]
  exact flatMap_congr_mem h

theorem stored_congr {f f' : LogFile K} (hd : f'.disk = f.disk) (hf : f'.mem.flushedSeqNum = f.mem.flushedSeqNum) :
    f'.stored = f.stored := by unfold LogFile.stored; rw [hd, hf]

/-- One write, seen from the lists of files. -/
theorem PutStep.shape {l l' : LogMgr K} {A B} (h : LogInv l A B) (hp : PutStep l l') :
    l'.lastFlushed = l.lastFlushed ∧ l'.lastSynced = l.lastSynced ∧
    ∃ φ : LogFile K → LogFile K, ∃ N, l'.files = l.files.map φ ++ N ∧
      (∀ f ∈ l.files, (φ f).num = f.num ∧ (φ f).mem.flushedSeqNum = f.mem.flushedSeqNum ∧ (φ f).disk = f.disk) ∧
      (∀ f ∈ N, f.num = l.maxNum + 1 ∧ f.mem.flushedSeqNum = NIL ∧ f.disk = []) ∧
      (l'.maxNum = l.maxNum ∨ (l'.maxNum = l.maxNum + 1 ∧ φ = id ∧ N.length = 1)) := by
  cases hp with
  | @same fs f m' r q hf hput h0 hN hgt =>
    have hff : f ∈ l.files := by rw [hf]; simp
    have hset := h.setFile_last (f' := { f with mem := m' }) hf rfl
    refine ⟨rfl, rfl, fun g => if g.num == f.num then { f with mem := m' } else g, [], ?_, ?_, by simp, Or.inl rfl⟩
    · have := congrArg LogMgr.files hset
      rw [List.append_nil]
      exact this.symm
    · intro x hx
      simp only []
      split
      · next e =>
        have hxf : x = f := by
          have h1 := h.file?_mem hx
          have h2 := h.file?_mem hff
          rw [show x.num = f.num by simpa using e] at h1
          exact Option.some.inj (h1.symm.trans h2)
        subst hxf
        exact ⟨rfl, hput.flushed, rfl⟩
      · exact ⟨rfl, rfl, rfl⟩
  | @new fs f m' r q hf hm hput h0 hN =>
    refine ⟨rfl, rfl, id, [{ num := l.maxNum + 1, startSeq := inc64 f.mem.maxSeqNum, mem := m' }], ?_, ?_, ?_, Or.inr ⟨rfl, rfl, rfl⟩⟩
    · simp only [List.map_id, hf]
    · intro x _; exact ⟨rfl, rfl, rfl⟩
    · intro x hx
      simp only [List.mem_singleton] at hx; subst hx
      exact ⟨rfl, hput.flushed, rfl⟩

theorem ManiLists.put {l l' : LogMgr K} {A B M F G} (hL : ManiLists l M F G) (h : LogInv l A B) (hp : PutStep l l') :
    ∃ F' G', ManiLists l' M F' G' ∧ F'.flatMap LogFile.stored = F.flatMap LogFile.stored := by
  obtain ⟨e1, e2, φ, N, e3, e4, e5, -⟩ := hp.shape h
  refine ⟨F.map φ, G.map φ ++ N, hL.move φ N e3 (fun f hf => ⟨(e4 f hf).1, (e4 f hf).2.1⟩) e1 e2 ?_, ?_⟩
  · intro hne f hf
    rcases h.lastS with h1 | h1
    · exact absurd h1 hne
    · rw [(e5 f hf).1]; omega
  · exact flatMap_stored_map (fun f hf => stored_congr (e4 f (hL.sub hf)).2.2 (e4 f (hL.sub hf)).2.1)

/-- The manifest written by a rotation lists the new file. -/
theorem ManiLists.rotated {l l' : LogMgr K} {A B} (h : LogInv l A B) (hp : PutStep l l')
    (hne : l'.maxNum ≠ l.maxNum) (hN : l.maxNum + 1 < NIL) :
    ManiLists l' l.rotated l'.files [] ∧ ∀ f ∈ l.files, f ∈ l'.files := by
  obtain ⟨e1, e2, φ, N, e3, e4, e5, e6⟩ := hp.shape h
  rcases e6 with e6 | ⟨e6, e7, e8⟩
  · exact absurd e6 hne
  subst e7
  obtain ⟨x, hx⟩ := List.length_eq_one_iff.1 e8
  subst hx
  simp only [List.map_id] at e3
  obtain ⟨fs, f, hf⟩ := h.split_last
  have hfi : l.file? l.maxNum = some f := by
    rw [← h.last_num hf]; exact h.file?_mem (by rw [hf]; simp)
  obtain ⟨x1, x2, -⟩ := e5 x (by simp)
  have hr : l.rotated = (l.addNewLogFile f).1.persist := by unfold LogMgr.rotated; rw [hfi]
  refine ⟨⟨by simp, by rw [e3]; simp, ?_, by rw [hr, e1]; rfl, ?_, by rw [hr]; exact hN, fun _ g hg => by cases hg⟩, ?_⟩
  · rw [hr, e3]
    simp only [LogMgr.persist, LogMgr.addNewLogFile, List.map_append, List.map_map, List.map_cons, List.map_nil,
      LogFile.create, MemTable.init, x1, x2]
    rfl
  · intro g hg
    rw [hr]
    show g.num ≤ l.maxNum + 1
    rw [e3] at hg
    rcases List.mem_append.1 hg with hg | hg
    · have := (h.num_range hg).2; omega
    · simp only [List.mem_singleton] at hg; subst hg; omega
  · intro g hg; rw [e3]; exact List.mem_append_left _ hg

theorem take_append_le {α : Type} {L N : List α} {n : Nat} (h : n ≤ L.length) : (L ++ N).take n = L.take n := by
  rw [List.take_append_of_le_length h]

theorem PInv.init (c : Cfg) (hc : c.Plain) :
    PInv (⟨DB.init S c, [(LogMgr.init c : LogMgr K).persist]⟩ : PDB K S) 0 [] [] := by
  have hi := DBInv.init (S := S) c hc
  refine ⟨hi, ?_, SInv.init c, by simp, Nat.le_refl _, ?_, XInv.self (LogInv.init c hc) ⟨[], rfl⟩ ?_⟩
  · intro k; show vis (S.get S.empty k) = _; rw [S.get_empty]; rfl
  · intro M hM
    simp only [List.mem_singleton] at hM
    subst hM
    exact ⟨_, [], ManiLists.self (LogInv.init c hc), by simp⟩
  · intro f hf
    have hf : f ∈ (LogMgr.init c : LogMgr K).files := hf
    simp only [LogMgr.init, List.mem_singleton] at hf
    subst hf
    exact fun h => absurd rfl h

theorem PInv.put {db db' : DB K S} {cs : List PMani} {n : Nat} {A B N : List (Rec K)}
    (h : PInv ⟨db, cs⟩ n A B) (hi : DBInv db' A (B ++ N)) (he : db' = { db with log := db'.log })
    (hp : PutStep db.log db'.log) (hfit : db.log.maxNum + 1 < NIL) :
    PInv ⟨db', if db'.log.maxNum = db.log.maxNum then cs else cs ++ [db.log.rotated]⟩ n A (B ++ N) := by
  have hl := h.inv.log
  have hold : ∀ M ∈ cs, ∃ F G, ManiLists db'.log M F G ∧
      ∀ r ∈ (A ++ (B ++ N)).take n, r ∈ A ++ F.flatMap LogFile.stored := by
    intro M hM
    obtain ⟨F, G, h1, h2⟩ := h.cand M hM
    obtain ⟨F', G', h3, h4⟩ := h1.put hl hp
    refine ⟨F', G', h3, ?_⟩
    rw [h4, ← List.append_assoc, take_append_le h.nle]; exact h2
  refine ⟨hi, by rw [he]; exact h.tab, h.store.put hl hp, ?_, ?_, ?_, ?_⟩
  · simp only []; split
    · exact h.ne
    · simp
  · have := h.nle; simp only [List.length_append] at this ⊢; omega
  · intro M hM
    by_cases hc : db'.log.maxNum = db.log.maxNum
    · simp only [if_pos hc] at hM; exact hold M hM
    · simp only [if_neg hc] at hM
      rcases List.mem_append.1 hM with hM | hM
      · exact hold M hM
      · simp only [List.mem_singleton] at hM; subst hM
        obtain ⟨h1, -⟩ := ManiLists.rotated hl hp hc hfit
        refine ⟨_, _, h1, ?_⟩
        obtain ⟨M0, hM0⟩ := List.exists_mem_of_ne_nil _ h.ne
        obtain ⟨F, G, h3, h4⟩ := hold M0 hM0
        intro r hr
        rcases List.mem_append.1 (h4 r hr) with h5 | h5
        · exact List.mem_append_left _ h5
        · apply List.mem_append_right
          obtain ⟨f, hf, hrf⟩ := List.mem_flatMap.1 h5
          exact List.mem_flatMap.2 ⟨f, h3.sub hf, hrf⟩
  · have hx := h.ext.put hl hi.log hp
    simp only []
    split
    · exact hx
    · next hc => exact hx.rotated hl hp hc

theorem PutSteps.ok {l l' : LogMgr K} (hp : PutSteps l l') {A B} (h : LogInv l A B) (s : SInv l) :
    SInv l' ∧ ∀ M F G, ManiLists l M F G → ∃ F' G', ManiLists l' M F' G' ∧
      F'.flatMap LogFile.stored = F.flatMap LogFile.stored := by
  induction hp generalizing A B with
  | refl => exact ⟨s, fun M F G hL => ⟨F, G, hL, rfl⟩⟩
  | step h1 h2 h3 _ ih =>
    obtain ⟨A1, B1, h4⟩ := h3
    obtain ⟨i1, i2⟩ := ih h4 (s.put h h1)
    refine ⟨i1, fun M F G hL => ?_⟩
    obtain ⟨F1, G1, j1, j2⟩ := hL.put h h1
    obtain ⟨F2, G2, k1, k2⟩ := i2 M F1 G1 j1
    exact ⟨F2, G2, k1, k2.trans j2⟩

theorem PInv.puts {db db' : DB K S} {cs : List PMani} {n : Nat} {A B N : List (Rec K)}
    (h : PInv ⟨db, cs⟩ n A B) (hi : DBInv db' A (B ++ N)) (he : db' = { db with log := db'.log })
    (hp : PutSteps db.log db'.log) : PInv ⟨db', cs⟩ n A (B ++ N) := by
  obtain ⟨p1, p2⟩ := hp.ok h.inv.log h.store
  refine ⟨hi, by rw [he]; exact h.tab, p1, h.ne, ?_, ?_, h.ext.puts h.inv.log hi.log hp⟩
  · have := h.nle; simp only [List.length_append] at this ⊢; omega
  · intro M hM
    obtain ⟨F, G, h1, h2⟩ := h.cand M hM
    obtain ⟨F', G', h3, h4⟩ := p2 M F G h1
    refine ⟨F', G', h3, ?_⟩
    rw [h4, ← List.append_assoc, take_append_le h.nle]; exact h2

/-- After a sync everything is on disk. -/
theorem PInv.synced {db : DB K S} {cs : List PMani} {n : Nat} {A B : List (Rec K)} (h : PInv ⟨db, cs⟩ n A B)
    {l' : LogMgr K} (hs : db.log.sync = (.ok, l')) :
    PInv ⟨{ db with log := l' }, [l'.persist]⟩ (A ++ B).length A B := by
  have hl := h.inv.log
  have e := hl.sync_eq h.store
  obtain ⟨l'', e', hl', hc, -, -, hm⟩ := hl.sync
  rw [hs] at e'; cases e'
  rw [hs] at e
  have e := congrArg Prod.snd e
  simp only [] at e
  refine ⟨h.inv.ofLog hl' hc hm, h.tab, ?_, by simp, Nat.le_refl _, ?_, XInv.self hl' ?_ ?_⟩
  · show SInv l'
    rw [e]; exact h.store.sync hl
  · intro M hM
    simp only [List.mem_singleton] at hM; subst hM
    refine ⟨_, _, ManiLists.self hl', ?_⟩
    intro r hr
    have hr := List.mem_of_mem_take hr
    rcases List.mem_append.1 hr with hr | hr
    · exact List.mem_append_left _ hr
    · apply List.mem_append_right
      rw [hl.pend] at hr
      obtain ⟨f, hf, hrf⟩ := List.mem_flatMap.1 hr
      refine List.mem_flatMap.2 ⟨db.log.syncOne f, ?_, ?_⟩
      · rw [e]; exact List.mem_map.2 ⟨f, hf, rfl⟩
      · rw [(h.store.syncOne hl hf).2.2.1]; exact hrf
  · obtain ⟨D, hD⟩ := h.ext.flat
    refine ⟨D, ?_⟩
    rw [hD, e]
    simp only [List.flatMap_map]
    rw [flatMap_congr_mem (fun f hf => (hl.syncOne_rel hf).bySeq)]
  · intro f' hf'
    rw [e] at hf'
    obtain ⟨f, hf, rfl⟩ := List.mem_map.1 hf'
    have hr := hl.syncOne_rel hf
    unfold LogFile.Top
    rw [hr.bySeq, hr.max]; exact h.ext.top f hf

theorem PInv.fewer {db : DB K S} {cs cs' : List PMani} {n : Nat} {A B : List (Rec K)} (h : PInv ⟨db, cs⟩ n A B)
    (hs : cs' ⊆ cs) (hne : cs' ≠ []) : PInv ⟨db, cs'⟩ n A B :=
  ⟨h.inv, h.tab, h.store, hne, h.nle, fun M hM => h.cand M (hs hM),
    ⟨h.ext.flat, fun M hM => h.ext.mins M (hs hM), fun M hM => h.ext.max M (hs hM), h.ext.top⟩⟩

/-- The newest file is synced up to some record: so are the others, and every manifest lists all. -/
theorem PInv.listed {db : DB K S} {cs : List PMani} {n : Nat} {A B : List (Rec K)} (h : PInv ⟨db, cs⟩ n A B)
    (hls : db.log.lastSynced = db.log.maxNum) (honce : db.getLastSyncedSeqNum ≠ none) :
    (∀ f ∈ db.log.files, f.mem.syncedSeqNum ≠ NIL) ∧
    ∀ M ∈ cs, ManiLists db.log M db.log.files [] := by
  have hl := h.inv.log
  have hN := hl.numN
  have hsf : db.log.syncFrom = db.log.maxNum := by
    unfold LogMgr.syncFrom; rw [hls, if_pos (Nat.ne_of_lt hN)]
  obtain ⟨fs, g, hg⟩ := hl.split_last
  simp only [] at hg hl hN
  have hgf : g ∈ db.log.files := by rw [hg]; simp
  have hgn : g.num = db.log.maxNum := hl.last_num hg
  have hgs : g.mem.syncedSeqNum ≠ NIL := by
    intro e
    apply honce
    unfold DB.getLastSyncedSeqNum LogMgr.getLastSyncedSeqNum
    rw [hls, ← hgn, hl.file?_mem hgf]
    simp [e]
  refine ⟨?_, ?_⟩
  · intro f hf
    by_cases e : f.num = g.num
    · rw [hl.same_num hf hgf e]; exact hgs
    · have hlt : f.num < db.log.maxNum := by
        have := (hl.num_range hf).2
        omega
      rw [h.store.lo f hf (by rw [hsf]; exact hlt)]
      exact hl.ne_last hf hlt
  · intro M hM
    obtain ⟨F, G, hL, -⟩ := h.cand M hM
    simp only [] at hL
    have hG : G = [] := by
      cases hG : G with
      | nil => rfl
      | cons f G' =>
        exfalso
        have h1 := hL.cov (by rw [hls]; exact Nat.ne_of_lt hN) f (by rw [hG]; simp)
        have h2 := (hl.num_range (f := f) (by rw [hL.files, hG]; simp)).2
        omega
    subst hG
    have hF : db.log.files = F := by rw [hL.files, List.append_nil]
    rw [← hF] at hL; exact hL

/-- A sync that does not store the manifest. -/
theorem PInv.syncSkip {db : DB K S} {cs : List PMani} {n : Nat} {A B : List (Rec K)} (h : PInv ⟨db, cs⟩ n A B)
    (hls : db.log.lastSynced = db.log.maxNum) (honce : db.getLastSyncedSeqNum ≠ none)
    {l' : LogMgr K} (hs : db.log.sync = (.ok, l')) :
    PInv ⟨{ db with log := l' }, cs⟩ (A ++ B).length A B := by
  have hl := h.inv.log
  have hy := h.synced hs
  obtain ⟨hsy, hall⟩ := h.listed hls honce
  have e := hl.sync_eq h.store
  rw [hs] at e
  have e := congrArg Prod.snd e
  simp only [] at e
  refine ⟨hy.inv, hy.tab, hy.store, h.ne, hy.nle, ?_, hy.ext.flat, ?_, ?_, hy.ext.top⟩
  · intro M hM
    refine ⟨l'.files, [], ?_, ?_⟩
    · have := (hall M hM).move (l' := l') db.log.syncOne [] (by rw [e]; simp)
        (fun f hf => ⟨(hl.syncOne_rel hf).num, (hl.syncOne_rel hf).flushed⟩) (by rw [e]) (by rw [e]; exact hls.symm)
        (fun _ f hf => by cases hf)
      rw [e] at this ⊢
      exact this
    · obtain ⟨F, G, h1, h2⟩ := hy.cand l'.persist (by simp)
      intro r hr
      rcases List.mem_append.1 (h2 r hr) with h3 | h3
      · exact List.mem_append_left _ h3
      · apply List.mem_append_right
        obtain ⟨f, hf, hrf⟩ := List.mem_flatMap.1 h3
        exact List.mem_flatMap.2 ⟨f, h1.sub hf, hrf⟩
  · intro M hM x hx f' hf' hn _
    rw [show (PDB.mk { db with log := l' } cs).db.log = l' from rfl, e] at hf'
    obtain ⟨f, hf, rfl⟩ := List.mem_map.1 hf'
    have hr := hl.syncOne_rel hf
    rw [hr.num] at hn
    rw [hr.min]
    exact h.ext.mins M hM x hx f hf hn (hsy f hf)
  · intro M hM
    have := h.ext.max M hM
    rw [show (PDB.mk { db with log := l' } cs).db.log = l' from rfl, e]
    exact this

theorem PInv.both {db : DB K S} {cs cs' : List PMani} {n : Nat} {A B : List (Rec K)} (h : PInv ⟨db, cs⟩ n A B)
    (h' : PInv ⟨db, cs'⟩ n A B) : PInv ⟨db, cs ++ cs'⟩ n A B := by
  refine ⟨h.inv, h.tab, h.store, by simp [show cs ≠ [] from h.ne], h.nle, ?_, h.ext.flat, ?_, ?_, h.ext.top⟩
  · intro M hM
    rcases List.mem_append.1 hM with hM | hM
    · exact h.cand M hM
    · exact h'.cand M hM
  · intro M hM
    rcases List.mem_append.1 hM with hM | hM
    · exact h.ext.mins M hM
    · exact h'.ext.mins M hM
  · intro M hM
    rcases List.mem_append.1 hM with hM | hM
    · exact h.ext.max M hM
    · exact h'.ext.max M hM

theorem PInv.mark {db : DB K S} {cs : List PMani} {n : Nat} {A B : List (Rec K)} (h : PInv ⟨db, cs⟩ n A B) :
    PInv ⟨{ db with log := db.log.checkpoint.1 }, cs⟩ n A B := by
  have hl := h.inv.log
  obtain ⟨c1, -, c3, -, -, c6⟩ := hl.checkpoint
  obtain ⟨s1, φ, s2, s3⟩ := h.store.mark hl
  refine ⟨h.inv.ofLog c1 c3 c6, h.tab, s1, h.ne, h.nle, ?_, h.ext.mark hl⟩
  intro M hM
  obtain ⟨F, G, h1, h2⟩ := h.cand M hM
  refine ⟨F.map φ, G.map φ ++ [], h1.move φ [] (by rw [s2]; simp) (fun f hf => ⟨(s3 f hf).1, (s3 f hf).2.2⟩)
    (by rw [s2]) (by rw [s2]) (by simp), ?_⟩
  rw [flatMap_stored_map (fun f hf => stored_congr (s3 f (h1.sub hf)).2.1 (s3 f (h1.sub hf)).2.2)]
  exact h2

/-- Which files and records a safe flush takes. -/
structure Flushing (db : DB K S) (o : LogMgr.FlushOpts) (A B : List (Rec K)) (P Q : List (LogFile K))
    (g : LogFile K) (s : Nat) : Prop where
  files : db.log.files = P ++ g :: Q
  sync : o.beyondLastSync = true ∨ (db.log.lastSynced ≠ NIL ∧ g.num ≤ db.log.lastSynced)
  cov : ∀ f ∈ P, f.mem.maxSeqNum ≤ s
  safe : g.SafeTo o.beyondLastSync s
  rel : FlushRel s o.beyondLastSync g ((if o.beyondLastSync = true then g.setSyncedSeqNum s else g).setFlushedSeqNum s)

theorem DB.SafeFlush.flushSeq {db : DB K S} {o : LogMgr.FlushOpts} {n : Nat} (h : db.SafeFlush o n) : db.FlushSeq o n := by
  rcases h with h | ⟨-, r, h1, h2⟩
  · exact Or.inl h
  · exact Or.inr (Or.inl ⟨r, h1, Or.inr h2⟩)

/-- A safe flush stops at a synced record. -/
theorem PInv.safeTo {db : DB K S} {cs : List PMani} {n : Nat} {A B : List (Rec K)} (h : PInv ⟨db, cs⟩ n A B)
    {o : LogMgr.FlushOpts} {m : Nat} (hs : db.SafeFlush o m) {g : LogFile K} {s : Nat} (hg : g ∈ db.log.files)
    (hsync : o.beyondLastSync = true ∨ (db.log.lastSynced ≠ NIL ∧ g.num ≤ db.log.lastSynced))
    (ht : db.log.FlushTgt o m g s) : g.SafeTo o.beyondLastSync s := by
  have hl := h.inv.log
  have hw := hl.wf g hg
  have hN := hl.numN
  rcases hs with hm | ⟨hb, r, h1, m', h2, h3⟩
  · obtain ⟨t1, t2⟩ := ht.nil hm
    cases hb : o.beyondLastSync with
    | false =>
      rw [hb] at t2; simp only [Bool.false_eq_true, if_false] at t2
      exact Or.inl ⟨rfl, by rw [← t2]; exact t1, by omega⟩
    | true =>
      rw [hb] at t2; simp only [if_true] at t2
      exact Or.inr ⟨rfl, by rw [← t2]; exact t1, t2⟩
  · left
    obtain ⟨-, hrB, hrn⟩ := hl.getSN_sound h1
    rw [hl.pend] at hrB
    obtain ⟨f, hf, hrf⟩ := List.mem_flatMap.1 hrB
    have hrs := pending_sub hrf
    have hgf := ht.rec' f hf r hrs hrn
    subst hgf
    have hbd := hw.bound r hrs
    have hs : s = m := ht.some (by omega)
    have hls : db.log.lastSynced ≠ NIL ∧ g.num ≤ db.log.lastSynced := by
      rcases hsync with h4 | h4
      · rw [hb] at h4; cases h4
      · exact h4
    have hsf : db.log.syncFrom = db.log.lastSynced := by unfold LogMgr.syncFrom; rw [if_pos hls.1]
    have hmx : g.mem.maxSeqNum ≠ NIL := by
      intro e
      rw [(hw.nil e).1] at hrs
      cases hrs
    refine ⟨hb, ?_⟩
    by_cases hlt : g.num < db.log.lastSynced
    · have := h.store.lo g hg (by rw [hsf]; exact hlt)
      exact ⟨by rw [this]; exact hmx, by rw [this, hs, ← hrn]; exact hbd.2.1⟩
    · unfold DB.getLastSyncedSeqNum LogMgr.getLastSyncedSeqNum at h2
      have : db.log.lastSynced = g.num := by omega
      rw [this, hl.file?_mem hg] at h2
      simp only at h2
      split at h2
      · cases h2
      · next hsy =>
        cases h2
        exact ⟨hsy, by rw [hs]; exact h3⟩

/-- A flush within the synced part: refused, or exactly this. -/
theorem PInv.flushing {db : DB K S} {cs : List PMani} {n : Nat} {A B : List (Rec K)} (h : PInv ⟨db, cs⟩ n A B)
    {o : LogMgr.FlushOpts} {m : Nat} (hs : db.SafeFlush o m) (hp : o.purgeOnly = false) :
    ((∃ e, db.log.flush o m db.table S.setBatch = (e, db.log, db.table) ∧ e ≠ .ok) ∧
      (m = 0 ∨ ∃ e, db.log.flushRange o m = .error e)) ∨
    ∃ P g Q s, Flushing db o A B P Q g s ∧
      (db.log.flushRange o m = .ok (db.log.minNum, g.num, s) ∧
        db.log.files.filter (fun f => decide (db.log.minNum ≤ f.num ∧ f.num ≤ g.num)) = P ++ [g]) ∧
      db.log.flush o m db.table S.setBatch = (.ok, db.log.flushed o s g Q,
        if LogMgr.gather s o.beyondLastSync (P ++ [g]) = [] then db.table
        else S.setBatch db.table (LogMgr.gather s o.beyondLastSync (P ++ [g])) (LogMgr.gatherCheckpoints s (P ++ [g]))) := by
  have hl := h.inv.log
  rcases hl.flush_shape o m (h.inv.flushOk hs.flushSeq) hp db.table S.setBatch with ⟨⟨e, h1, -, h3⟩, h4⟩ | ⟨P, g, Q, s, h1, h0, h2, h3, h4, h5, h6⟩
  · exact Or.inl ⟨⟨e, h1, h3⟩, h4⟩
  · have hg : g ∈ db.log.files := by rw [h1]; simp
    exact Or.inr ⟨P, g, Q, s, ⟨h1, h2, h3, h.safeTo hs hg h2 h5, flushRel_of (hl.wf g hg) _ h4⟩, h0, h6⟩

/-- The table after handing over records. -/
theorem get_setBatch_ite {t : S.T} (ht : S.Inv t) {R : List (Rec K)} (hR : Increasing R) (c : List Nat) (k : K) :
    vis (S.get (if R = [] then t else S.setBatch t R c) k) = match lastWrite R k with
      | some r => vis (some r)
      | none => vis (S.get t k) := by
  by_cases he : R = []
  · rw [if_pos he, he]; rfl
  · rw [if_neg he]; exact S.get_setBatch _ _ _ k ht hR

theorem valueOf_append (A D : List (Rec K)) (k : K) :
    valueOf (A ++ D) k = match lastWrite D k with
      | some r => vis (some r)
      | none => valueOf A k := by
  unfold valueOf
  rw [lastWrite_append]
  cases lastWrite D k <;> rfl

theorem PInv.flush {db : DB K S} {cs : List PMani} {n : Nat} {A B : List (Rec K)} (h : PInv ⟨db, cs⟩ n A B)
    {o : LogMgr.FlushOpts} {m : Nat} (hs : db.SafeFlush o m) (hp : o.purgeOnly = false) {db'}
    (hr : db.flushLogs o m = (.ok, db')) :
    ∃ D B', B = D ++ B' ∧ PInv ⟨db', [db'.log.persist]⟩ n (A ++ D) B' := by
  have hl := h.inv.log
  obtain ⟨-, D0, B0, d1, d2, -⟩ := h.inv.flush hp hs.flushSeq hr
  unfold DB.flushLogs at hr
  split at hr
  · next hc => exact absurd (congrArg Prod.fst hr) hc
  have hmode : db.log.cfg.logSectionOnly = false := h.inv.mode
  rw [if_neg (by simp [hmode])] at hr
  simp only at hr
  rcases h.flushing hs hp with ⟨⟨e, h1, h2⟩, -⟩ | ⟨P, g, Q, s, hF, -, h1⟩
  · rw [h1] at hr; cases hr; exact absurd rfl h2
  rw [h1] at hr
  have hex := hl.gather_exact hF.files hF.safe hF.rel hF.cov hF.sync
  have hcore := hl.flush_core hF.files hF.sync hF.cov hF.rel
  simp only [] at hcore
  have hst := h.store.flush hl hF.files hF.safe hF.rel hF.sync
  have hg : g ∈ db.log.files := by rw [hF.files]; simp
  obtain ⟨f1, f2, f3, f4⟩ := flushUpd_same g s o.beyondLastSync
  have hrel := hF.rel
  cases hr
  unfold LogMgr.flushed at hst d2 ⊢
  generalize ((if o.beyondLastSync = true then g.setSyncedSeqNum s else g).setFlushedSeqNum s) = g' at hrel hex hcore hst f1 d2 ⊢
  obtain ⟨c1, c2, -⟩ := hcore
  generalize hD : P.flatMap LogFile.pending ++ g.moved g' = D at hex c1 c2
  generalize hB' : g'.pending ++ Q.flatMap LogFile.pending = B' at c1 c2
  have hinc : Increasing (A ++ B) := hl.inc
  have hDB : D0 = D ∧ B0 = B' := by
    have e2 : B0 = B' := by
      have h1 := d2.log.pend
      have h2 := c1.pend
      rw [h1, h2]
    subst e2
    rw [c2] at d1
    exact ⟨(List.append_cancel_right d1).symm, rfl⟩
  obtain ⟨rfl, rfl⟩ := hDB
  refine ⟨D0, B0, d1, d2, ?_, hst, by simp, ?_, ?_, XInv.self d2.log ?_ ?_⟩
  · intro k
    simp only []
    have hDinc : Increasing D0 := by
      rw [d1] at hinc
      exact (List.pairwise_append.1 (List.pairwise_append.1 hinc).2.1).1
    rw [hex, get_setBatch_ite h.inv.table hDinc, valueOf_append]
    cases lastWrite D0 k with
    | some r => rfl
    | none => exact h.tab k
  · rw [List.append_assoc, ← d1]; exact h.nle
  · intro M hM
    simp only [List.mem_singleton] at hM; subst hM
    refine ⟨_, _, ManiLists.self d2.log, ?_⟩
    rw [List.append_assoc, ← d1]
    obtain ⟨M0, hM0⟩ := List.exists_mem_of_ne_nil _ h.ne
    obtain ⟨F, G, h3, h4⟩ := h.cand M0 hM0
    intro r hr
    rcases List.mem_append.1 (h4 r hr) with h5 | h5
    · exact List.mem_append_left _ (List.mem_append_left _ h5)
    · obtain ⟨f, hf, hrf⟩ := List.mem_flatMap.1 h5
      have hfl := h3.sub hf
      rw [hF.files] at hfl
      have hfp := stored_sub_pending (h.store.ok f (h3.sub hf)) hrf
      rcases List.mem_append.1 hfl with hfP | hfQ
      · apply List.mem_append_left; apply List.mem_append_right
        rw [← hD]; apply List.mem_append_left
        exact List.mem_flatMap.2 ⟨f, hfP, hfp⟩
      · rcases List.mem_cons.1 hfQ with rfl | hfQ
        · by_cases hin : r ∈ f.moved g'
          · apply List.mem_append_left; apply List.mem_append_right
            rw [← hD]; exact List.mem_append_right _ hin
          · apply List.mem_append_right
            refine List.mem_flatMap.2 ⟨g', by simp, ?_⟩
            rw [stored_flushed hrel f1]
            refine List.mem_filter.2 ⟨hrf, ?_⟩
            by_contra hc
            apply hin
            exact List.mem_filter.2 ⟨hfp, by simpa using hc⟩
        · apply List.mem_append_right
          exact List.mem_flatMap.2 ⟨f, by simp [hfQ], hrf⟩
  · obtain ⟨D, hD⟩ := h.ext.flat
    refine ⟨D ++ P.flatMap (·.mem.bySeq), ?_⟩
    rw [List.append_assoc, ← d1, hD, hF.files, List.flatMap_append, List.flatMap_cons, List.flatMap_cons, hrel.bySeq,
      List.append_assoc]
  · intro f hf
    rcases List.mem_cons.1 hf with rfl | hf
    · unfold LogFile.Top
      rw [hrel.bySeq, hrel.max]; exact h.ext.top g hg
    · exact h.ext.top f (by rw [hF.files]; simp [hf])

/-! ### opening again -/

theorem dataOf_prefix {I J : List (DItem K)} (h : I <+: J) : dataOf I <+: dataOf J := by
  obtain ⟨X, rfl⟩ := h
  rw [dataOf_append]; exact List.prefix_append _ _

theorem ent_mins {F : List (LogFile K)} {E : List PEntry}
    (h : E.map (fun e => (e.num, e.flushed)) = F.map (fun f => (f.num, f.mem.flushedSeqNum)))
    (hm : ∀ e ∈ E, ∀ f ∈ F, e.num = f.num → e.min = f.mem.minSeqNum) :
    E.map (fun e => (e.num, e.min, e.flushed)) = F.map (fun f => (f.num, f.mem.minSeqNum, f.mem.flushedSeqNum)) := by
  induction E generalizing F with
  | nil =>
    cases F with
    | nil => rfl
    | cons f F => cases h
  | cons e E ih =>
    cases F with
    | nil => cases h
    | cons f F =>
      simp only [List.map_cons, List.cons.injEq, Prod.mk.injEq] at h ⊢
      exact ⟨⟨h.1.1, hm e (by simp) f (by simp) h.1.1, h.1.2⟩,
        ih h.2 (fun e' he f' hf => hm e' (by simp [he]) f' (by simp [hf]))⟩

theorem prefix_cutAt {P L : List (Rec K)} {x : Rec K} (h : P ++ [x] <+: L) (hi : Increasing L) :
    P ++ [x] = cutAt x.seq L := by
  obtain ⟨X, rfl⟩ := h
  have h1 := List.pairwise_append.1 hi
  have h2 := List.pairwise_append.1 h1.1
  rw [cutAt_append, cutAt_all]
  · have : cutAt x.seq X = [] := by
      unfold cutAt
      rw [List.filter_eq_nil_iff]
      intro y hy
      have := h1.2.2 x (by simp) y hy
      have : ¬ y.seq ≤ x.seq := by omega
      simp [this]
    rw [this, List.append_nil]
  · intro r hr
    rcases List.mem_append.1 hr with hr | hr
    · exact Nat.le_of_lt (h2.2.2 r hr x (by simp))
    · rw [List.mem_singleton.1 hr]; exact Nat.le_refl _

/-- What is found when the database is opened again. -/
theorem PInv.left {db : DB K S} {cs : List PMani} {n : Nat} {A B : List (Rec K)} (h : PInv ⟨db, cs⟩ n A B)
    {d : Disk K S} (hd : Left db cs d) (hcompl : ∀ f ∈ db.log.files, f.Complete) :
    ∃ q, db.log.Durable d.mani d.files q ∧ ∀ cfg : Cfg, cfg.Plain → (DB.reopen cfg d).getMaxSeqNum = some q := by
  have hl := h.inv.log
  have hN := hl.numN
  have hls := hd.synced
  have hsf : db.log.syncFrom = db.log.maxNum := by
    unfold LogMgr.syncFrom; rw [hls, if_pos (Nat.ne_of_lt hN)]
  obtain ⟨fs, g, hg⟩ := hl.split_last
  simp only [] at hg hl hN
  have hgf : g ∈ db.log.files := by rw [hg]; simp
  have hgn : g.num = db.log.maxNum := hl.last_num hg
  have hgs : g.mem.syncedSeqNum ≠ NIL := by
    intro e
    apply hd.once
    unfold DB.getLastSyncedSeqNum LogMgr.getLastSyncedSeqNum
    rw [hls, ← hgn, hl.file?_mem hgf]
    simp [e]
  have hlo : ∀ f ∈ db.log.files, f.num < db.log.maxNum → f.mem.syncedSeqNum = f.mem.maxSeqNum ∧ f.mem.maxSeqNum ≠ NIL := by
    intro f hf hlt
    exact ⟨h.store.lo f hf (by rw [hsf]; exact hlt), hl.ne_last hf hlt⟩
  have hcase : ∀ f ∈ db.log.files, f = g ∨ f.num < db.log.maxNum := by
    intro f hf
    by_cases e : f.num = g.num
    · exact Or.inl (hl.same_num hf hgf e)
    · have := (hl.num_range hf).2
      right; omega
  have hsy : ∀ f ∈ db.log.files, f.mem.syncedSeqNum ≠ NIL := by
    intro f hf
    rcases hcase f hf with rfl | h1
    · exact hgs
    · rw [(hlo f hf h1).1]; exact (hlo f hf h1).2
  have hmx : ∀ f ∈ db.log.files, f.mem.maxSeqNum ≠ NIL := by
    intro f hf e
    rcases (hl.wf f hf).synced with h1 | h1
    · exact hsy f hf h1
    · omega
  obtain ⟨F, G, hL, -⟩ := h.cand d.mani hd.mani
  simp only [] at hL
  have hG : G = [] := by
    cases hG : G with
    | nil => rfl
    | cons f G' =>
      exfalso
      have h1 := hL.cov (by rw [hls]; exact Nat.ne_of_lt hN) f (by rw [hG]; simp)
      have h2 := (hl.num_range (f := f) (by rw [hL.files, hG]; simp)).2
      omega
  have hF : db.log.files = F := by rw [hL.files, hG, List.append_nil]
  have hent := hL.ent
  rw [← hF] at hent
  -- the newest file
  obtain ⟨ig, ig1, ig2, ig3⟩ := hd.files g hgf
  have hgc : (db.log.syncOne g).Complete := by
    unfold LogMgr.syncOne
    split
    · rw [hl.bar]; exact (hcompl g hgf).sync (h.store.ok g hgf) (hl.wf g hgf) (h.ext.top g hgf) _
    · exact hcompl g hgf
  have hgd : dataOf (db.log.syncOne g).disk = g.mem.bySeq := by
    have hr := hl.syncOne_rel hgf
    have h1 := (h.store.syncOne hl hgf).2.2.2.1 (hmx g hgf)
    obtain ⟨h2, -⟩ := hgc.2 (by simp only [] at h1; rw [h1]; exact hmx g hgf)
    simp only [] at h1
    rw [h1, hr.bySeq] at h2
    rw [h2]
    exact cutAt_all (fun r hr => ((hl.wf g hgf).bound r hr).2.1)
  have hdg : ∃ r ∈ dataOf ig, r.seq = g.mem.syncedSeqNum := by
    obtain ⟨h1, r, hr, e⟩ := (hcompl g hgf).2 hgs
    refine ⟨r, (dataOf_prefix ig2).subset ?_, e⟩
    rw [h1, List.mem_filter]; exact ⟨hr, by simp [e]⟩
  have hneg : dataOf ig ≠ [] := by
    obtain ⟨r, hr, -⟩ := hdg
    intro e; rw [e] at hr; cases hr
  obtain ⟨L, x, hx⟩ := List.eq_nil_or_concat (dataOf ig) |>.resolve_left hneg
  rw [List.concat_eq_append] at hx
  have hig : dataOf ig = cutAt x.seq g.mem.bySeq := by
    have h1 := dataOf_prefix ig3
    rw [hgd, hx] at h1
    rw [hx]; exact prefix_cutAt h1 (hl.wf g hgf).sorted
  have hxg : x ∈ g.mem.bySeq := by
    have : x ∈ dataOf ig := by rw [hx]; simp
    rw [hig] at this; exact (mem_cutAt.1 this).1
  have hD : db.log.Durable d.mani d.files x.seq := by
    refine ⟨ent_mins hent (fun e he f hf en => h.ext.mins d.mani hd.mani e he f hf en (hsy f hf)), ?_, hL.lastF, (h.ext.max _ hd.mani).2,
      fun f hf => (h.store.ok f hf).min (hmx f hf), ?_⟩
    · refine Nat.le_antisymm (h.ext.max _ hd.mani).1 ?_
      rw [← hgn]; exact hL.max g (by rw [← hF]; exact hgf)
    · intro f hf
      have hfl : ∀ r : Rec K, r.seq = f.mem.syncedSeqNum → f.mem.flushedSeqNum ≠ NIL → f.mem.flushedSeqNum ≤ r.seq := by
        intro r e hn
        rcases (hl.wf f hf).order with h1 | h1 | h1
        · exact absurd h1 (hsy f hf)
        · exact absurd h1 hn
        · rw [e]; exact h1
      rcases hcase f hf with rfl | hlt
      · refine ⟨ig, ig1, hig, hneg, fun hn => ?_⟩
        obtain ⟨r, hr, e⟩ := hdg
        exact ⟨r, hr, hfl r e hn⟩
      · obtain ⟨i, i1, i2, i3⟩ := hd.files f hf
        have hso : db.log.syncOne f = f := by
          unfold LogMgr.syncOne
          rw [if_neg (by rw [hsf]; omega)]
        rw [hso] at i3
        have hi : i = f.disk := (i2.eq_of_length (Nat.le_antisymm i2.length_le i3.length_le)).symm
        subst hi
        obtain ⟨h1, r, hr, e⟩ := (hcompl f hf).2 (hsy f hf)
        have hrd : r ∈ dataOf f.disk := by rw [h1, List.mem_filter]; exact ⟨hr, by simp [e]⟩
        refine ⟨f.disk, i1, ?_, (fun e0 => by rw [e0] at hrd; cases hrd), fun hn => ⟨r, hrd, hfl r e hn⟩⟩
        rw [h1]
        have ha : ∀ q', f.mem.maxSeqNum ≤ q' → cutAt q' f.mem.bySeq = f.mem.bySeq := fun q' hq' =>
          cutAt_all (fun r hr => Nat.le_trans ((hl.wf f hf).bound r hr).2.1 hq')
        rw [(hlo f hf hlt).1]
        refine (ha _ (Nat.le_refl _)).trans (ha _ ?_).symm
        have ho := hl.order
        rw [hg] at ho hf
        have hfs : f ∈ fs := by
          rcases List.mem_append.1 hf with h3 | h3
          · exact h3
          · rw [List.mem_singleton.1 h3, hgn] at hlt; omega
        have hb := (List.pairwise_append.1 ho).2.2 f hfs g (by simp)
        exact Nat.le_of_lt (hb.recs (hlo f (by rw [hg]; exact hf) hlt).2 x hxg)
  refine ⟨x.seq, hD, fun cfg hpl => ?_⟩
  show (LogMgr.recover cfg d.mani d.files).getMaxSeqNum = _
  rw [hD.recover hl cfg]
  have hi := hD.inv hl hpl.rw hpl.noOverwrite hpl.entries
  have e := hi.getMax_eq (fs := fs.map (reload d.files)) (f := reload d.files g) (by simp [LogMgr.reloaded, hg])
  have hR := hD.reloaded hl hgf
  have hb := hR.bounds (hl.wf g hgf)
  rw [e, if_pos (by omega)]
  congr 1
  have h1 := hR.le x (by rw [hR.bySeq]; exact mem_cutAt.2 ⟨hxg, Nat.le_refl _⟩)
  omega

theorem PInv.durable {db : DB K S} {cs : List PMani} {n : Nat} {A B : List (Rec K)} (h : PInv ⟨db, cs⟩ n A B)
    {cfg : Cfg} {d : Disk K S} {q : Nat} (hd : Reopens db cs cfg d q) : db.log.Durable d.mani d.files q := by
  obtain ⟨q', h1, h2⟩ := h.left hd.toLeft hd.complete
  have := h2 cfg hd.plain
  rw [hd.max] at this
  cases this
  exact h1

theorem PInv.reopen {db : DB K S} {cs : List PMani} {n : Nat} {A B : List (Rec K)} (h : PInv ⟨db, cs⟩ n A B)
    {cfg : Cfg} {d : Disk K S} {q : Nat} (hd : Reopens db cs cfg d q) :
    A ++ cutAt q B = (A ++ B).filter (fun r => decide (r.seq ≤ q)) ∧
      PInv ⟨DB.reopen cfg d, [d.mani]⟩ (A ++ cutAt q B).length A (cutAt q B) := by
  have hl := h.inv.log
  have hD := h.durable hd
  have hpl := hd.plain
  have hr := hD.recover hl cfg
  have hi := hD.inv hl hpl.rw hpl.noOverwrite hpl.entries
  have hA : A ++ cutAt q B = cutAt q (A ++ B) := by rw [cutAt_append, cutAt_all (hD.flushedLe hl)]
  simp only [] at hl hD hi hr
  have hR := fun f hf => hD.reloaded hl (f := f) hf
  have hlog : (DB.reopen cfg d).log = db.log.reloaded cfg d.files := hr
  have htab : (DB.reopen cfg d).table = S.reopen db.table := by
    show S.reopen d.table = _; rw [hd.table]
  have hok := S.reopen_ok db.table h.inv.table
  have hflat : ∃ D, A ++ cutAt q B = D ++ (db.log.reloaded cfg d.files).files.flatMap (·.mem.bySeq) := by
    obtain ⟨D, hDD⟩ := h.ext.flat
    refine ⟨cutAt q D, ?_⟩
    rw [hA, hDD, cutAt_append]
    congr 1
    exact (flatMap_cutAt q _ d.files hR).2.symm
  have hne : A ++ cutAt q B ≠ [] := by
    obtain ⟨D, e⟩ := hflat
    rw [e]
    obtain ⟨f, fs, hf⟩ := List.exists_cons_of_ne_nil hl.ne
    obtain ⟨r, hr', -⟩ := (hR f (by rw [hf]; simp)).last
    intro h0
    have := (List.append_eq_nil_iff.1 h0).2
    have hm : r ∈ (db.log.reloaded cfg d.files).files.flatMap (·.mem.bySeq) := by
      refine List.mem_flatMap.2 ⟨reload d.files f, ?_, hr'⟩
      simp [LogMgr.reloaded, hf]
    rw [this] at hm; cases hm
  have htv : ∀ k, vis (S.get (DB.reopen cfg d).table k) = valueOf A k := by
    intro k; rw [htab, hok.2 k]; exact h.tab k
  refine ⟨hA, ⟨by rw [hlog]; exact hi, by rw [htab]; exact hok.1, by rw [hlog]; exact hpl.tables, fun k _ => htv k,
    fun e => absurd e hne, fun _ => ?_, ?_⟩, htv, by rw [hlog]; exact hD.store hl cfg, by simp, Nat.le_refl _, ?_, ?_⟩
  · have hm : (DB.reopen cfg d).log.getMaxSeqNum = some q := hd.max
    rw [hm]
    obtain ⟨fs, g, hg⟩ := hl.split_last
    have hgf : g ∈ db.log.files := by rw [hg]; simp
    have hRg := hR g hgf
    have e := hi.getMax_eq (fs := fs.map (reload d.files)) (f := reload d.files g) (by simp [LogMgr.reloaded, hg])
    have hb := hRg.bounds (hl.wf g hgf)
    rw [hlog, e, if_pos (by omega)] at hm
    obtain ⟨D, hDD⟩ := hflat
    have hbs : ∃ L x, (reload d.files g).mem.bySeq = L ++ [x] := by
      obtain ⟨r, hr', -⟩ := hRg.last
      obtain ⟨L, x, hx⟩ := List.eq_nil_or_concat (reload d.files g).mem.bySeq |>.resolve_left (fun e => by rw [e] at hr'; cases hr')
      exact ⟨L, x, by rw [hx, List.concat_eq_append]⟩
    obtain ⟨L, x, hx⟩ := hbs
    have hlast : (A ++ cutAt q B).getLast? = some x := by
      rw [hDD]
      simp only [LogMgr.reloaded, hg, List.map_append, List.map_cons, List.map_nil, List.flatMap_append, List.flatMap_cons,
        List.flatMap_nil, List.append_nil, hx]
      simp [List.getLast?_append]
    rw [hlast]
    simp only [Option.map_some]
    congr 1
    have h1 := hRg.le x (by rw [hx]; simp)
    obtain ⟨r, hr', er⟩ := hRg.last
    have hinc : Increasing (reload d.files g).mem.bySeq := by rw [hRg.bySeq]; exact inc_cutAt q (hl.wf g hgf).sorted
    have h2 : (reload d.files g).mem.maxSeqNum ≤ x.seq := by
      rw [← er]
      rw [hx] at hr' hinc
      rcases List.mem_append.1 hr' with h3 | h3
      · exact Nat.le_of_lt ((List.pairwise_append.1 hinc).2.2 r h3 x (by simp))
      · rw [List.mem_singleton.1 h3]; exact Nat.le_refl _
    have h3 : (reload d.files g).mem.maxSeqNum = q := Option.some.inj hm
    omega
  · intro r hr'
    rw [hA] at hr'
    exact h.inv.pos r (mem_cutAt.1 hr').1
  · intro M hM
    rw [List.mem_singleton] at hM
    subst hM
    rw [show (PDB.mk (DB.reopen cfg d) [d.mani]).db.log = db.log.reloaded cfg d.files from hlog]
    refine ⟨(db.log.reloaded cfg d.files).files, [], ⟨by simp, hi.ne, ?_, hD.lastF, ?_, by rw [hD.max]; exact hl.numN, by simp⟩, ?_⟩
    · have := congrArg (List.map (fun (x : Nat × Nat × Nat) => (x.1, x.2.2))) hD.ent
      simp only [List.map_map, Function.comp_def] at this
      rw [this]
      simp only [LogMgr.reloaded, List.map_map]
      apply List.map_congr_left
      intro f hf
      simp only [Function.comp]
      rw [(hR f hf).num, (hR f hf).flushed]
    · intro f' hf'
      rw [hD.max]
      exact (hi.num_range hf').2
    · intro r hr'
      have hr' := List.mem_of_mem_take hr'
      rcases List.mem_append.1 hr' with h1 | h1
      · exact List.mem_append_left _ h1
      · apply List.mem_append_right
        rw [hi.pend] at h1
        obtain ⟨f', hf', hrf⟩ := List.mem_flatMap.1 h1
        refine List.mem_flatMap.2 ⟨f', hf', ?_⟩
        obtain ⟨f, hf, rfl⟩ := List.mem_map.1 hf'
        have : (reload d.files f).stored = (reload d.files f).pending := by
          unfold LogFile.stored LogFile.pending above; rw [(hR f hf).data]
        rw [this]; exact hrf
  · rw [show (PDB.mk (DB.reopen cfg d) [d.mani]).db.log = db.log.reloaded cfg d.files from hlog]
    refine ⟨hflat, ?_, ?_, ?_⟩
    · intro M hM e he f' hf' hn _
      rw [List.mem_singleton] at hM; subst hM
      have hm : (e.num, e.min, e.flushed) ∈ d.mani.entries.map (fun e => (e.num, e.min, e.flushed)) := List.mem_map.2 ⟨e, he, rfl⟩
      rw [hD.ent] at hm
      obtain ⟨f0, hf0, e0⟩ := List.mem_map.1 hm
      simp only [Prod.mk.injEq] at e0
      obtain ⟨f, hf, rfl⟩ := List.mem_map.1 hf'
      have hff : f = f0 := hl.same_num hf hf0 (by rw [← (hR f hf).num, ← hn, e0.1])
      subst hff
      rw [(hR f hf).min, e0.2.1]
    · intro M hM
      rw [List.mem_singleton] at hM; subst hM
      exact ⟨by rw [hD.max]; exact Nat.le_refl _, hD.lastS⟩
    · intro f' hf'
      obtain ⟨f, hf, rfl⟩ := List.mem_map.1 hf'
      exact fun _ => (hR f hf).last

/-- Every reachable handle satisfies the invariant. -/
theorem PReach.inv {p : PDB K S} {h : List (Rec K)} {n : Nat} (hr : PReach p h n) :
    ∃ A B, h = A ++ B ∧ PInv p n A B := by
  induction hr with
  | init c hc => exact ⟨[], [], rfl, PInv.init c hc⟩
  | @set db h n cs r se db' _ hfit hseq hse hs ih =>
    obtain ⟨A, B, rfl, hi⟩ := ih
    have hck : db.check .write = .ok := by
      unfold DB.setRecord at hs
      split at hs
      · next hc => exact absurd (congrArg Prod.fst hs) hc
      · next hc => simpa using hc
    have h0 : r.seq ≠ 0 := by
      intro e
      unfold DB.setRecord LogMgr.setSN at hs
      rw [hck] at hs
      have hrw : db.log.cfg.readOnly = false := hi.inv.log.rw
      simp [hrw, e] at hs
    obtain ⟨db'', hs', hi', -, he, hp⟩ := hi.inv.set r se hfit hseq h0 hse hck
    simp only at hs'
    rw [hs] at hs'; cases hs'
    exact ⟨A, _, List.append_assoc _ _ _, hi.put hi' he hp hfit.2⟩
  | @setRefused db h n cs r se st db' _ hs hst ih =>
    obtain ⟨A, B, rfl, hi⟩ := ih
    refine ⟨A, B, rfl, ?_⟩
    have : db' = db := by
      unfold DB.setRecord at hs
      split at hs
      · cases hs; rfl
      · obtain ⟨hd1, hd⟩ := Prod.ext_iff.1 hs
        simp only at hd hd1
        have e := hi.inv.log.setSN_refused r se (Prod.ext hd1 rfl) hst
        rw [← hd, show (db.log.setSN r se).snd = db.log from e]
    rw [this]; exact hi
  | @batch db h n cs b db' _ hfit hN hs ih =>
    obtain ⟨A, B, rfl, hi⟩ := ih
    have hck : db.check .write = .ok := by
      unfold DB.setRecordBatch at hs
      split at hs
      · next hc => exact absurd (congrArg Prod.fst hs) hc
      · next hc => simpa using hc
    rcases hi.inv.batch b hfit hN hck with ⟨-, -, db'', hs', hi', he, hp⟩ | ⟨-, hs'⟩
    · simp only at hs'
      rw [hs] at hs'; cases hs'
      exact ⟨A, _, List.append_assoc _ _ _, hi.puts hi' he hp⟩
    · simp only at hs'
      rw [hs] at hs'
      have := congrArg Prod.fst hs'
      simp only at this
      split at this <;> cases this
  | @batchRefused db h n cs b st db' _ hfit hN hs hst ih =>
    obtain ⟨A, B, rfl, hi⟩ := ih
    refine ⟨A, B, rfl, ?_⟩
    by_cases hck : db.check .write = .ok
    · rcases hi.inv.batch b hfit hN hck with ⟨-, -, db'', hs', hi', -⟩ | ⟨-, hs'⟩
      · simp only at hs'
        rw [hs] at hs'; cases hs'; exact absurd rfl hst
      · simp only at hs'
        rw [hs] at hs'
        have := congrArg Prod.snd hs'
        simp only at this
        rw [this]; exact hi
    · unfold DB.setRecordBatch at hs
      rw [if_pos hck] at hs; cases hs; exact hi
  | @sync db h n cs db' _ hs ih =>
    obtain ⟨A, B, rfl, hi⟩ := ih
    refine ⟨A, B, rfl, ?_⟩
    unfold DB.sync at hs
    split at hs
    · next hc => exact absurd (congrArg Prod.fst hs) hc
    · obtain ⟨l', e, -⟩ := hi.inv.log.sync
      simp only at e
      rw [e] at hs; cases hs
      exact hi.synced e
  | @syncRefused db h n cs st db' _ hs hst ih =>
    obtain ⟨A, B, rfl, hi⟩ := ih
    refine ⟨A, B, rfl, ?_⟩
    rcases (hi.inv.sync hs).2 with h1 | h1
    · exact absurd h1 hst
    · rw [h1.2]; exact hi
  | syncSkip _ h1 h2 hs ih =>
    obtain ⟨A, B, rfl, hi⟩ := ih
    exact ⟨A, B, rfl, hi.syncSkip h1 h2 hs⟩
  | syncOff _ h1 h2 hs ih =>
    obtain ⟨A, B, rfl, hi⟩ := ih
    exact ⟨A, B, rfl, (hi.syncSkip h1 h2 hs).both (hi.synced hs)⟩
  | fewer _ h1 h2 ih =>
    obtain ⟨A, B, rfl, hi⟩ := ih
    exact ⟨A, B, rfl, hi.fewer h1 h2⟩
  | @flush db h n cs o m db' _ hp hsafe hs ih =>
    obtain ⟨A, B, rfl, hi⟩ := ih
    obtain ⟨D, B', e, hi'⟩ := hi.flush hsafe hp hs
    exact ⟨A ++ D, B', by rw [e, List.append_assoc], hi'⟩
  | @flushRefused db h n cs o m st db' _ hp hsafe hs hst ih =>
    obtain ⟨A, B, rfl, hi⟩ := ih
    refine ⟨A, B, rfl, ?_⟩
    obtain ⟨-, D, B', -, -, -, he, -⟩ := hi.inv.flush hp hsafe.flushSeq hs
    rw [he hst]; exact hi
  | mark _ ih =>
    obtain ⟨A, B, rfl, hi⟩ := ih
    exact ⟨A, B, rfl, hi.mark⟩
  | @checkpoint db h n cs db' c _ hs ih =>
    obtain ⟨A, B, rfl, hi⟩ := ih
    refine ⟨A, B, rfl, ?_⟩
    have hi' := hi.mark
    unfold DB.checkpoint at hs
    obtain ⟨l', e, -⟩ := hi'.inv.log.sync
    simp only at e
    simp only [e] at hs; cases hs
    exact hi'.synced e
  | @maint db h n cs t _ ht ih =>
    obtain ⟨A, B, rfl, hi⟩ := ih
    refine ⟨A, B, rfl, hi.inv.maint ht, ?_, hi.store, hi.ne, hi.nle, hi.cand, hi.ext⟩
    obtain ⟨-, h2⟩ := S.maint_ok _ _ hi.inv.table ht
    intro k; simp only [h2]; exact hi.tab k
  | flags c r _ ih =>
    obtain ⟨A, B, rfl, hi⟩ := ih
    exact ⟨A, B, rfl, ⟨hi.inv.log, hi.inv.table, hi.inv.mode, hi.inv.old, hi.inv.max0, hi.inv.maxS, hi.inv.pos⟩,
      hi.tab, hi.store, hi.ne, hi.nle, hi.cand, hi.ext⟩
  | @reopen db h n cs cfg d q _ hd ih =>
    obtain ⟨A, B, rfl, hi⟩ := ih
    obtain ⟨e, hi'⟩ := hi.reopen hd
    rw [← e]
    exact ⟨A, _, rfl, hi'⟩

/-! ### after the crash -/

theorem answerRec_eq (H : List (Rec K)) (k : K) :
    (match valueOf H k with
      | some r => if r.isIns then (Status.ok, some r) else (.keyNotFound, none)
      | none => (.keyNotFound, none)) = Spec.answerRec H k := by
  unfold Spec.answerRec valueOf
  cases hl : lastWrite H k with
  | none => rfl
  | some r =>
    simp only [vis]
    by_cases hd : r.isDel = true
    · have : r.isIns = false := by
        unfold Rec.isDel at hd; unfold Rec.isIns
        cases ht : r.type <;> simp_all
      simp [hd, this]
    · simp [hd]

/-- A prefix that has every element of another prefix of the same increasing list contains it. -/
theorem prefix_of_mem {H P Q : List (Rec K)} (hi : Increasing H) (hP : P <+: H) (hQ : Q <+: H)
    (hm : ∀ r ∈ P, r ∈ Q) : P <+: Q := by
  rcases List.prefix_or_prefix_of_prefix hP hQ with h | ⟨X, rfl⟩
  · exact h
  · cases X with
    | nil => simp
    | cons x X =>
      exfalso
      have hx := hm x (by simp)
      have hi' : Increasing (Q ++ x :: X) := List.Pairwise.sublist hP.sublist hi
      have := (List.pairwise_append.1 hi').2.2 x hx x (by simp)
      exact Nat.lt_irrefl _ this

/-- What a reopened database answers. -/
theorem reopen_answer {d : Disk K S} {B H : List (Rec K)} (hR : Recovered (LogMgr.loaded d.mani d.files) B)
    (ht : S.Inv d.table) (cfg : Cfg) (hc : cfg.logSectionOnly = false) (k : K)
    (h1 : ∀ r, lastWrite B k = some r → valueOf H k = vis (some r))
    (h2 : lastWrite B k = none → vis (S.get d.table k) = valueOf H k) :
    (DB.reopen cfg d).getRecordByKey k = Spec.answerRec H k := by
  rw [← answerRec_eq]
  have hg := hR.get cfg hc k
  have hcheck : (DB.reopen cfg d).check .read = .ok := rfl
  unfold DB.getRecordByKey
  rw [hcheck]
  have hl : (DB.reopen cfg d).log = LogMgr.recover cfg d.mani d.files := rfl
  have htt : (DB.reopen cfg d).table = S.reopen d.table := rfl
  have hcf : (LogMgr.recover cfg d.mani d.files : LogMgr K).cfg = cfg := rfl
  simp only [ne_eq, not_true_eq_false, if_false, DB.tableGet, hl, htt, hg, hcf, hc, Bool.false_eq_true]
  have hdel : ∀ r : Rec K, r.isDel = true → r.isIns = false := by
    intro r hd
    unfold Rec.isDel at hd; unfold Rec.isIns
    cases ht : r.type <;> simp_all
  cases hB : lastWrite B k with
  | some r =>
    rw [h1 r hB]
    simp only [vis]
    cases hd : r.isDel
    · simp
    · simp [hdel r hd]
  | none =>
    rw [← h2 hB, ← (S.reopen_ok _ ht).2 k]
    simp only []
    cases hgt : S.get (S.reopen d.table) k with
    | none => rfl
    | some r =>
      simp only [vis]
      cases hd : r.isDel
      · simp
      · simp [hdel r hd]

theorem ManiLists.sorted {l : LogMgr K} {A B M F G} (hL : ManiLists l M F G) (h : LogInv l A B) :
    (F.map (·.num)).Pairwise (· < ·) := by
  rw [List.pairwise_map]
  have ho := h.order
  rw [hL.files] at ho
  exact (List.pairwise_append.1 ho).1.imp (fun hab => hab.num)

theorem Survives.read {f : LogFile K} {v} (h : Survives f v) (hs : StoreOk f) :
    ∀ d, v = some d → d.tail ≠ .bad ∧ Increasing (dataOf d.items) := by
  intro d hd
  rcases h with h | ⟨h, -⟩
  · rw [h] at hd; cases hd
    refine ⟨?_, hs.inc⟩
    unfold LogFile.onDisk; rw [hs.torn]; simp
  · rw [h] at hd; cases hd

theorem Survives.found {f : LogFile K} {disk : List (DFile K)} (h : Survives f (disk.find? (fun d => d.num == f.num))) :
    found disk f = f.stored := by
  unfold Jungle.found LogFile.stored
  rcases h with h | ⟨h, h'⟩
  · rw [h]; rfl
  · rw [h, h']; rfl

/-- A crash in which no log file has been removed. -/
theorem PInv.crash_found {p : PDB K S} {n : Nat} {A B : List (Rec K)} (h : PInv p n A B) {d : Disk K S}
    {F G} (hL : ManiLists p.db.log d.mani F G) {m : Nat}
    (hn : ∀ r ∈ (A ++ B).take m, r ∈ A ++ F.flatMap (found d.files))
    (ht : d.table = p.db.table) (q : Nat)
    (hread : ∀ f ∈ F, ∀ x, d.file f.num = some x → x.tail ≠ .bad ∧ Increasing (dataOf x.items))
    (h1 : ∀ f ∈ F, f.num < q → found d.files f = f.pending)
    (h2 : ∀ f ∈ F, f.num = q → found d.files f <+: f.pending)
    (h3 : ∀ f ∈ F, q < f.num → found d.files f = [])
    (hmiss : ∀ f ∈ F, f.num ≠ p.db.log.minNum → d.file f.num = none → q ≤ f.num ∧ found d.files f = [])
    (cfg : Cfg) (hc : cfg.logSectionOnly = false) :
    F.flatMap (found d.files) <+: B ∧ (A ++ B).take m <+: A ++ F.flatMap (found d.files) ∧
      ∀ k, (DB.reopen cfg d).getRecordByKey k = Spec.answerRec (A ++ F.flatMap (found d.files)) k := by
  have hl := h.inv.log
  have hs := hL.sorted hl
  have hB : F.flatMap (found d.files) <+: B := by
    refine (flat_prefix (found d.files) q F hs h1 h2 h3).trans ?_
    rw [hl.pend, hL.files, List.flatMap_append]
    exact List.prefix_append _ _
  have hAB : A ++ F.flatMap (found d.files) <+: A ++ B := (List.prefix_append_right_inj A).2 hB
  refine ⟨hB, ?_, ?_⟩
  · refine prefix_of_mem hl.inc (List.take_prefix _ _) hAB ?_
    exact hn
  · have hR : Recovered (LogMgr.loaded d.mani d.files) (F.flatMap (found d.files)) := by
      refine hL.recovered hl d.files p.db.log.minNum hread ?_ ?_
      · intro f hf hlt
        have := (hl.num_range (hL.sub hf)).1; omega
      · intro f hf f' hf' hlt hnone hle
        obtain ⟨a1, a2⟩ := hmiss f hf (by omega) hnone
        by_cases he : f'.num = f.num
        · have : f' = f := by
            have e1 := hl.file?_mem (hL.sub hf)
            have e2 := hl.file?_mem (hL.sub hf')
            rw [he] at e2
            exact Option.some.inj (e2.symm.trans e1)
          rw [this]; exact a2
        · exact h3 f' hf' (by omega)
    intro k
    refine reopen_answer hR (by rw [ht]; exact h.inv.table) cfg hc k ?_ ?_
    · intro r hr; rw [valueOf_append, hr]
    · intro hr; rw [valueOf_append, hr, ht]; exact h.tab k

theorem PInv.crash_core {p : PDB K S} {n : Nat} {A B : List (Rec K)} (h : PInv p n A B) {d : Disk K S}
    {F G} (hL : ManiLists p.db.log d.mani F G)
    (hn : ∀ r ∈ (A ++ B).take n, r ∈ A ++ F.flatMap LogFile.stored)
    (ht : d.table = p.db.table) (q : Nat)
    (hread : ∀ f ∈ F, ∀ x, d.file f.num = some x → x.tail ≠ .bad ∧ Increasing (dataOf x.items))
    (h1 : ∀ f ∈ F, f.num < q → found d.files f = f.pending)
    (h2 : ∀ f ∈ F, f.num = q → found d.files f <+: f.pending)
    (h3 : ∀ f ∈ F, q < f.num → found d.files f = [])
    (hst : ∀ f ∈ F, ∀ r ∈ f.stored, r ∈ found d.files f)
    (hmiss : ∀ f ∈ F, f.num ≠ p.db.log.minNum → d.file f.num = none → q ≤ f.num ∧ found d.files f = [])
    (cfg : Cfg) (hc : cfg.logSectionOnly = false) :
    F.flatMap (found d.files) <+: B ∧ (A ++ B).take n <+: A ++ F.flatMap (found d.files) ∧
      ∀ k, (DB.reopen cfg d).getRecordByKey k = Spec.answerRec (A ++ F.flatMap (found d.files)) k := by
  refine h.crash_found hL ?_ ht q hread h1 h2 h3 hmiss cfg hc
  intro r hr
  rcases List.mem_append.1 (hn r hr) with h5 | h5
  · exact List.mem_append_left _ h5
  · apply List.mem_append_right
    obtain ⟨f, hf, hrf⟩ := List.mem_flatMap.1 h5
    exact List.mem_flatMap.2 ⟨f, hf, hst f hf r hrf⟩

/-- A missing file holds nothing, nor do the files after it. -/
theorem PInv.missing {p : PDB K S} {n : Nat} {A B : List (Rec K)} (h : PInv p n A B) {f : LogFile K}
    (hf : f ∈ p.db.log.files) (hm : f.num ≠ p.db.log.minNum) (hd : f.disk = []) :
    p.db.log.syncFrom ≤ f.num ∧ f.stored = [] := by
  have hl := h.inv.log
  refine ⟨?_, by unfold LogFile.stored above; rw [hd]; rfl⟩
  by_contra hlt
  have hsy := h.store.lo f hf (by omega)
  have hr := hl.syncFrom_range
  have hmx := hl.ne_last hf (by omega)
  exact h.store.disk f hf hm (by rw [hsy]; exact hmx) hd

theorem PInv.idle {p : PDB K S} {n : Nat} {A B : List (Rec K)} (h : PInv p n A B) {d : Disk K S}
    {F G} (hL : ManiLists p.db.log d.mani F G)
    (hn : ∀ r ∈ (A ++ B).take n, r ∈ A ++ F.flatMap LogFile.stored)
    (ht : d.table = p.db.table) (hs : ∀ f ∈ p.db.log.files, Survives f (d.file f.num))
    (cfg : Cfg) (hc : cfg.logSectionOnly = false) :
    F.flatMap LogFile.stored <+: B ∧ (A ++ B).take n <+: A ++ F.flatMap LogFile.stored ∧
      ∀ k, (DB.reopen cfg d).getRecordByKey k = Spec.answerRec (A ++ F.flatMap LogFile.stored) k := by
  have hl := h.inv.log
  have hfound : ∀ f ∈ F, found d.files f = f.stored := fun f hf => (hs f (hL.sub hf)).found
  have e : F.flatMap (found d.files) = F.flatMap LogFile.stored := flatMap_congr_mem hfound
  rw [← e]
  refine h.crash_core hL hn ht p.db.log.syncFrom ?_ ?_ ?_ ?_ ?_ ?_ cfg hc
  · intro f hf; exact (hs f (hL.sub hf)).read (h.store.ok f (hL.sub hf))
  · intro f hf hlt; rw [hfound f hf]; exact h.store.stored_lo hl (hL.sub hf) hlt
  · intro f hf _; rw [hfound f hf]; exact stored_prefix (h.store.ok f (hL.sub hf)) (hl.wf f (hL.sub hf))
  · intro f hf hlt; rw [hfound f hf]; exact h.store.stored_hi (hL.sub hf) hlt
  · intro f hf r hr; rw [hfound f hf]; exact hr
  · intro f hf hm hnone
    rw [hfound f hf]
    refine h.missing (hL.sub hf) hm ?_
    rcases hs f (hL.sub hf) with h1 | h1
    · rw [h1] at hnone; cases hnone
    · exact h1.2

theorem above_prefix {m : Nat} {I J : List (Rec K)} (h : I <+: J) : above m I <+: above m J := by
  obtain ⟨X, rfl⟩ := h
  unfold above
  rw [List.filter_append]; exact List.prefix_append _ _

theorem PInv.inSync {p : PDB K S} {n : Nat} {A B : List (Rec K)} (h : PInv p n A B) {d : Disk K S}
    {F G} (hL : ManiLists p.db.log d.mani F G)
    (hn : ∀ r ∈ (A ++ B).take n, r ∈ A ++ F.flatMap LogFile.stored)
    (ht : d.table = p.db.table) {P : List (LogFile K)} {g : LogFile K} {Q : List (LogFile K)}
    (hf : p.db.log.files = P ++ g :: Q) (hsf : p.db.log.syncFrom ≤ g.num)
    (hP : ∀ f ∈ P, Survives (p.db.log.syncOne f) (d.file f.num))
    (hg : Survives g (d.file g.num) ∨
        ∃ items tail, d.file g.num = some ⟨g.num, items, tail⟩ ∧ tail ≠ .bad ∧
          g.disk <+: items ∧ items <+: (p.db.log.syncOne g).disk)
    (hQ : ∀ f ∈ Q, Survives f (d.file f.num))
    (cfg : Cfg) (hc : cfg.logSectionOnly = false) :
    ∃ B', B' <+: B ∧ (A ++ B).take n <+: A ++ B' ∧
      ∀ k, (DB.reopen cfg d).getRecordByKey k = Spec.answerRec (A ++ B') k := by
  have hl := h.inv.log
  have ho := hl.order
  rw [hf] at ho
  have ho1 := List.pairwise_append.1 ho
  have ho2 := List.pairwise_cons.1 ho1.2.1
  have hPn : ∀ f ∈ P, f.num < g.num := fun f hfP => (ho1.2.2 f hfP g (by simp)).num
  have hQn : ∀ f ∈ Q, g.num < f.num := fun f hfQ => (ho2.1 f hfQ).num
  have hPf : ∀ f ∈ P, f ∈ p.db.log.files := fun f hfP => by rw [hf]; simp [hfP]
  have hQf : ∀ f ∈ Q, f ∈ p.db.log.files := fun f hfQ => by rw [hf]; simp [hfQ]
  have hgf : g ∈ p.db.log.files := by rw [hf]; simp
  have hcase : ∀ f ∈ F, (f ∈ P ∧ f.num < g.num) ∨ f = g ∨ (f ∈ Q ∧ g.num < f.num) := by
    intro f hfF
    have := hL.sub hfF
    rw [hf] at this
    rcases List.mem_append.1 this with h1 | h1
    · exact Or.inl ⟨h1, hPn f h1⟩
    · rcases List.mem_cons.1 h1 with h1 | h1
      · exact Or.inr (Or.inl h1)
      · exact Or.inr (Or.inr ⟨h1, hQn f h1⟩)
  have hmark : ∀ f ∈ p.db.log.files, (p.db.log.syncOne f).mem.flushedSeqNum = f.mem.flushedSeqNum ∧
      (p.db.log.syncOne f).num = f.num := by
    intro f hff
    have := hl.syncOne_rel hff
    exact ⟨this.flushed, this.num⟩
  have hfP : ∀ f ∈ P, found d.files f = f.pending := by
    intro f hfP
    have hs := hP f hfP
    have hm := hmark f (hPf f hfP)
    rw [← (h.store.syncOne hl (hPf f hfP)).2.2.1]
    unfold Jungle.found LogFile.stored
    rw [hm.1]
    rcases hs with h1 | ⟨h1, h2⟩
    · have : (d.files.find? (fun d => d.num == f.num)) = some (p.db.log.syncOne f).onDisk := h1
      rw [this]; rfl
    · have : (d.files.find? (fun d => d.num == f.num)) = none := h1
      rw [this, h2]; rfl
  have hfQ : ∀ f ∈ Q, found d.files f = [] := by
    intro f hfQ
    rw [(hQ f hfQ).found]
    have := hQn f hfQ
    exact h.store.stored_hi (hQf f hfQ) (by omega)
  have hgp : g.stored <+: found d.files g ∧ found d.files g <+: g.pending := by
    rcases hg with hg | ⟨items, tail, e1, -, e3, e4⟩
    · rw [hg.found]; exact ⟨List.prefix_rfl, stored_prefix (h.store.ok g hgf) (hl.wf g hgf)⟩
    · have e : found d.files g = above g.mem.flushedSeqNum (dataOf items) := by
        unfold Jungle.found
        have : (d.files.find? (fun d => d.num == g.num)) = some ⟨g.num, items, tail⟩ := e1
        rw [this]; rfl
      rw [e]
      refine ⟨above_prefix (dataOf_prefix e3), ?_⟩
      rw [← (h.store.syncOne hl hgf).2.2.1]
      unfold LogFile.stored
      rw [(hmark g hgf).1]
      exact above_prefix (dataOf_prefix e4)
  refine ⟨_, h.crash_core hL hn ht g.num ?_ ?_ ?_ ?_ ?_ ?_ cfg hc⟩
  · intro f hfF x hx
    rcases hcase f hfF with ⟨h1, -⟩ | rfl | ⟨h1, -⟩
    · exact (hP f h1).read (h.store.syncOne hl (hPf f h1)).1 x hx
    · rcases hg with hg | ⟨items, tail, e1, e2, e3, e4⟩
      · exact hg.read (h.store.ok f hgf) x hx
      · rw [e1] at hx; cases hx
        exact ⟨e2, List.Pairwise.sublist (dataOf_prefix e4).sublist (h.store.syncOne hl hgf).1.inc⟩
    · exact (hQ f h1).read (h.store.ok f (hQf f h1)) x hx
  · intro f hfF hlt
    rcases hcase f hfF with ⟨h1, -⟩ | rfl | ⟨h1, h2⟩
    · exact hfP f h1
    · omega
    · omega
  · intro f hfF heq
    rcases hcase f hfF with ⟨h1, h2⟩ | rfl | ⟨h1, h2⟩
    · omega
    · exact hgp.2
    · omega
  · intro f hfF hlt
    rcases hcase f hfF with ⟨h1, h2⟩ | rfl | ⟨h1, h2⟩
    · omega
    · omega
    · exact hfQ f h1
  · intro f hfF r hr
    rcases hcase f hfF with ⟨h1, h2⟩ | rfl | ⟨h1, h2⟩
    · rw [hfP f h1]; exact stored_sub_pending (h.store.ok f (hPf f h1)) hr
    · exact hgp.1.subset hr
    · rw [h.store.stored_hi (hQf f h1) (by omega)] at hr; cases hr
  · intro f hfF hm hnone
    rcases hcase f hfF with ⟨h1, h2⟩ | rfl | ⟨h1, h2⟩
    · exfalso
      have hmx := hl.ne_last (hPf f h1) (by have := (hl.num_range hgf).2; omega)
      have hd := (h.store.syncOne hl (hPf f h1)).2.2.2.2.1 hm hmx
      rcases hP f h1 with h3 | h3
      · rw [h3] at hnone; cases hnone
      · exact hd h3.2
    · refine ⟨Nat.le_refl _, ?_⟩
      unfold Jungle.found
      have : (d.files.find? (fun d => d.num == f.num)) = none := hnone
      rw [this]; rfl
    · exact ⟨Nat.le_of_lt h2, hfQ f h1⟩

/-- Files with small numbers first. -/
theorem flatMap_cut (c : LogFile K → List (Rec K)) (q : Nat) (F : List (LogFile K))
    (hs : (F.map (·.num)).Pairwise (· < ·)) :
    F.flatMap c = F.flatMap (fun f => if f.num < q then c f else []) ++
      F.flatMap (fun f => if f.num < q then [] else c f) := by
  induction F with
  | nil => rfl
  | cons f F ih =>
    rw [List.map_cons, List.pairwise_cons] at hs
    simp only [List.flatMap_cons]
    by_cases hlt : f.num < q
    · rw [if_pos hlt, if_pos hlt, ih hs.2]; simp
    · rw [if_neg hlt, if_neg hlt, ih hs.2]
      have : F.flatMap (fun f => if f.num < q then c f else []) = [] := flatMap_nil_of (fun g hg => by
        have := hs.1 g.num (List.mem_map.2 ⟨g, hg, rfl⟩)
        rw [if_neg (by omega)])
      rw [this]; simp

theorem lastWrite_append_none {X Y : List (Rec K)} {k : K} (h : lastWrite (X ++ Y) k = none) :
    lastWrite X k = none ∧ lastWrite Y k = none := by
  rw [lastWrite_append] at h
  cases hY : lastWrite Y k with
  | some r => rw [hY] at h; cases h
  | none => rw [hY] at h; exact ⟨h, rfl⟩

theorem PInv.inFlush {p : PDB K S} {n : Nat} {A B : List (Rec K)} (h : PInv p n A B) {d : Disk K S}
    {F G} (hL : ManiLists p.db.log d.mani F G)
    {o : LogMgr.FlushOpts} {m : Nat} (hp : o.purgeOnly = false) (hb : o.beyondLastSync = false)
    (hsafe : p.db.SafeFlush o m) (hin : InFlush p o m d)
    (cfg : Cfg) (hc : cfg.logSectionOnly = false) (k : K) :
    (DB.reopen cfg d).getRecordByKey k = Spec.answerRec (A ++ F.flatMap LogFile.stored) k := by
  have hl := h.inv.log
  obtain ⟨-, hm0, lnFrom, lnTo, s, cut, hrange, htab, hs⟩ := hin
  rw [hb] at htab
  rcases h.flushing hsafe hp with ⟨-, h1 | ⟨e, h1⟩⟩ | ⟨P, g, Q, s', hF, ⟨h1, h2⟩, h3⟩
  · exact absurd h1 hm0
  · rw [h1] at hrange; cases hrange
  rw [h1] at hrange
  obtain ⟨rfl, rfl, rfl⟩ : p.db.log.minNum = lnFrom ∧ g.num = lnTo ∧ s' = s := by
    injection hrange with e
    exact ⟨congrArg Prod.fst e, congrArg (fun x => x.2.1) e, congrArg (fun x => x.2.2) e⟩
  rw [h2] at htab
  rw [h3] at htab
  simp only [] at htab
  rw [hb] at htab
  have hex := hl.gather_exact hF.files hF.safe hF.rel hF.cov hF.sync
  rw [hb] at hex
  have hrel := hF.rel
  have hg : g ∈ p.db.log.files := by rw [hF.files]; simp
  have hsync : p.db.log.lastSynced ≠ NIL ∧ g.num ≤ p.db.log.lastSynced := by
    rcases hF.sync with h4 | h4
    · rw [hb] at h4; cases h4
    · exact h4
  have hsf : p.db.log.syncFrom = p.db.log.lastSynced := by unfold LogMgr.syncFrom; rw [if_pos hsync.1]
  have hsafeT : g.mem.syncedSeqNum ≠ NIL ∧ s' ≤ g.mem.syncedSeqNum := by
    rcases hF.safe with h4 | h4
    · exact h4.2
    · rw [hb] at h4; cases h4.1
  have hval := hrel.val hb hsafeT.1
  simp only [Bool.false_eq_true, if_false, hb] at hex hval
  generalize (g.setFlushedSeqNum s') = g' at hex hval
  have hg's : g'.mem.flushedSeqNum = s' := by
    rw [hval]; exact Nat.min_eq_left hsafeT.2
  have ho := hl.order
  rw [hF.files] at ho
  have ho1 := List.pairwise_append.1 ho
  have hPn : ∀ f ∈ P, f.num < g.num := fun f hfP => (ho1.2.2 f hfP g (by simp)).num
  have hPf : ∀ f ∈ P, f ∈ p.db.log.files := fun f hfP => by rw [hF.files]; simp [hfP]
  -- the listed files begin with those being flushed
  obtain ⟨Q1, hFQ⟩ : ∃ Q1, F = P ++ g :: Q1 := by
    have e := hL.files
    rw [hF.files] at e
    rcases List.append_eq_append_iff.1 e with ⟨X, e1, e2⟩ | ⟨X, e1, e2⟩
    · cases X with
      | nil =>
        exfalso
        have : g ∈ G := by rw [List.nil_append] at e2; rw [← e2]; simp
        have := hL.cov hsync.1 g this
        omega
      | cons x X =>
        injection e2 with e3 e4
        exact ⟨X, by rw [e1, e3]⟩
    · exfalso
      have : g ∈ G := by rw [e2]; simp
      have := hL.cov hsync.1 g this
      omega
  generalize hD : LogMgr.gather s' false (P ++ [g]) = D at htab hex
  -- what is on disk begins with the records being flushed
  have hPst : P.flatMap LogFile.stored = P.flatMap LogFile.pending :=
    flatMap_congr_mem (fun f hfP => h.store.stored_lo hl (hPf f hfP) (by have := hPn f hfP; omega))
  have hgst : g.moved g' ++ g.stored.filter (fun r => !decide (r.seq ≤ s')) = g.stored := by
    have hstI : Increasing g.stored := List.Pairwise.sublist List.filter_sublist (h.store.ok g hg).inc
    conv => rhs; rw [split_le hstI s']
    congr 1
    rw [(h.store.ok g hg).eq hsafeT.1, List.filter_filter]
    unfold LogFile.moved
    apply List.filter_congr
    intro r _
    rw [hg's]
    have hv : valid s' = true := valid_iff.2 (by
      have := (hl.wf g hg).synced
      omega)
    rw [hv]
    by_cases hle : r.seq ≤ s'
    · have : r.seq ≤ g.mem.syncedSeqNum := by omega
      simp [hle, this]
    · simp [hle]
  have hT : F.flatMap LogFile.stored = D ++ (g.stored.filter (fun r => !decide (r.seq ≤ s')) ++ Q1.flatMap LogFile.stored) := by
    rw [hFQ, List.flatMap_append, List.flatMap_cons, hPst, hex]
    conv => lhs; rw [← hgst]
    simp only [List.append_assoc]
  have hTinc : Increasing (F.flatMap LogFile.stored) := by
    have hpre := flat_prefix LogFile.stored p.db.log.syncFrom F (hL.sorted hl)
      (fun f hf hlt => h.store.stored_lo hl (hL.sub hf) hlt)
      (fun f hf _ => stored_prefix (h.store.ok f (hL.sub hf)) (hl.wf f (hL.sub hf)))
      (fun f hf hlt => h.store.stored_hi (hL.sub hf) hlt)
    have : F.flatMap LogFile.stored <+: B := hpre.trans (by
      rw [hl.pend, hL.files, List.flatMap_append]; exact List.prefix_append _ _)
    exact List.Pairwise.sublist this.sublist (List.pairwise_append.1 hl.inc).2.1
  have hDinc : Increasing D := by
    rw [hT] at hTinc; exact (List.pairwise_append.1 hTinc).1
  -- the files that are removed hold records being flushed
  generalize hq : Nat.min g.num cut = q
  have hq1 : q ≤ g.num := by rw [← hq]; exact Nat.min_le_left _ _
  have hq2 : q ≤ cut := by rw [← hq]; exact Nat.min_le_right _ _
  have hq3 : ∀ a, a < g.num → a < cut → a < q := fun a h1 h2 => by rw [← hq]; exact Nat.lt_min.2 ⟨h1, h2⟩
  have hfound : ∀ f ∈ F, found d.files f = if f.num < q then [] else f.stored := by
    intro f hf
    have hsv := hs f (hL.sub hf)
    have hr := (hl.num_range (hL.sub hf)).1
    by_cases hlt : f.num < q
    · rw [if_pos hlt]
      rw [if_pos ⟨hr, by omega, by omega⟩] at hsv
      unfold Jungle.found
      have : (d.files.find? (fun d => d.num == f.num)) = none := hsv
      rw [this]; rfl
    · rw [if_neg hlt]
      rw [if_neg (fun hx => hlt (hq3 _ hx.2.1 hx.2.2))] at hsv
      exact hsv.found
  have hsv2 : ∀ f ∈ F, ¬ f.num < q → Survives f (d.file f.num) := by
    intro f hf hlt
    have hsv := hs f (hL.sub hf)
    rw [if_neg (fun hx => hlt (hq3 _ hx.2.1 hx.2.2))] at hsv
    exact hsv
  have hsv1 : ∀ f ∈ F, f.num < q → d.file f.num = none := by
    intro f hf hlt
    have hsv := hs f (hL.sub hf)
    have hr := (hl.num_range (hL.sub hf)).1
    rw [if_pos ⟨hr, by omega, by omega⟩] at hsv
    exact hsv
  have hcut := flatMap_cut LogFile.stored q F (hL.sorted hl)
  have eB : F.flatMap (found d.files) = F.flatMap (fun f => if f.num < q then [] else f.stored) :=
    flatMap_congr_mem hfound
  rw [← eB] at hcut
  generalize hR1 : F.flatMap (fun f => if f.num < q then f.stored else []) = R1 at hcut
  have hR1D : ∃ D2, D = R1 ++ D2 := by
    have e1 : R1 = P.flatMap (fun f => if f.num < q then f.stored else []) := by
      rw [← hR1, hFQ, List.flatMap_append]
      have : (g :: Q1).flatMap (fun f => if f.num < q then f.stored else []) = [] := flatMap_nil_of (fun f hf => by
        have hsrt := hL.sorted hl
        rw [hFQ, List.map_append, List.map_cons] at hsrt
        have := (List.pairwise_cons.1 (List.pairwise_append.1 hsrt).2.1).1
        rcases List.mem_cons.1 hf with rfl | hf
        · rw [if_neg (by omega)]
        · have := this f.num (List.mem_map.2 ⟨f, hf, rfl⟩)
          rw [if_neg (by omega)])
      rw [this, List.append_nil]
    have hsP : (P.map (·.num)).Pairwise (· < ·) := by
      have hsrt := hL.sorted hl
      rw [hFQ, List.map_append] at hsrt
      exact (List.pairwise_append.1 hsrt).1
    rw [hex, ← hPst, flatMap_cut LogFile.stored q P hsP, ← e1, List.append_assoc]
    exact ⟨_, rfl⟩
  obtain ⟨D2, hD2⟩ := hR1D
  have hB' : F.flatMap (found d.files) = D2 ++ (g.stored.filter (fun r => !decide (r.seq ≤ s')) ++ Q1.flatMap LogFile.stored) := by
    rw [hT, hD2, List.append_assoc] at hcut
    exact (List.append_cancel_left hcut).symm
  have hR : Recovered (LogMgr.loaded d.mani d.files) (F.flatMap (found d.files)) := by
    refine hL.recovered hl d.files (Nat.max p.db.log.minNum q) ?_ ?_ ?_
    · intro f hf x hx
      by_cases hlt : f.num < q
      · have := hsv1 f hf hlt
        unfold Disk.file at this
        rw [hx] at this; cases this
      · exact (hsv2 f hf hlt).read (h.store.ok f (hL.sub hf)) x hx
    · intro f hf hlt
      have hr := (hl.num_range (hL.sub hf)).1
      refine hsv1 f hf ?_
      rcases Nat.le_total p.db.log.minNum q with h5 | h5
      · rw [show Nat.max p.db.log.minNum q = q from Nat.max_eq_right h5] at hlt; exact hlt
      · rw [show Nat.max p.db.log.minNum q = p.db.log.minNum from Nat.max_eq_left h5] at hlt; omega
    · intro f hf f' hf' hlt hnone hle
      have h5 : p.db.log.minNum ≤ Nat.max p.db.log.minNum q := Nat.le_max_left _ _
      have h6 : q ≤ Nat.max p.db.log.minNum q := Nat.le_max_right _ _
      have hd : f.disk = [] := by
        rcases hsv2 f hf (by omega) with h7 | h7
        · unfold Disk.file at h7
          rw [h7] at hnone; cases hnone
        · exact h7.2
      obtain ⟨a1, a2⟩ := h.missing (hL.sub hf) (by omega) hd
      rw [hfound f' hf', if_neg (by omega)]
      by_cases he : f'.num = f.num
      · have : f' = f := by
          have e1 := hl.file?_mem (hL.sub hf)
          have e2 := hl.file?_mem (hL.sub hf')
          rw [he] at e2
          exact Option.some.inj (e2.symm.trans e1)
        rw [this]; exact a2
      · exact h.store.stored_hi (hL.sub hf') (by omega)
  -- the tables
  have htinv : S.Inv d.table := by
    rcases htab with ⟨-, ht⟩ | ht
    · exact (S.torn_ok _ _ _ _ h.inv.table hDinc ht).1
    · rw [ht]
      split
      · exact h.inv.table
      · exact S.inv_setBatch _ _ _ h.inv.table hDinc
  refine reopen_answer hR htinv cfg hc k ?_ ?_
  · intro r hr
    rw [hcut, ← List.append_assoc, valueOf_append, hr]
  · intro hnone
    rw [hcut, ← List.append_assoc, valueOf_append, hnone]
    simp only []
    have hDk : lastWrite D k = lastWrite R1 k := by
      rw [hB'] at hnone
      rw [hD2, lastWrite_append, (lastWrite_append_none hnone).1]; rfl
    have hfull : vis (S.get (if D = [] then p.db.table else S.setBatch p.db.table D
        (LogMgr.gatherCheckpoints s' (P ++ [g]))) k) = valueOf (A ++ R1) k := by
      rw [get_setBatch_ite h.inv.table hDinc, hDk, valueOf_append]
      cases lastWrite R1 k with
      | some r => rfl
      | none => exact h.tab k
    rcases htab with ⟨hcl, ht⟩ | ht
    · have hR1nil : R1 = [] := by
        rw [← hR1]
        refine flatMap_nil_of (fun f hf => ?_)
        have hr := (hl.num_range (hL.sub hf)).1
        rw [if_neg (by omega)]
      rw [hR1nil] at hDk ⊢
      rw [List.append_nil]
      rcases (S.torn_ok _ _ _ _ h.inv.table hDinc ht).2 k with h5 | h5
      · rw [h5]; exact h.tab k
      · rw [h5, S.get_setBatch _ _ _ k h.inv.table hDinc, hDk]
        exact h.tab k
    · rw [ht]; exact hfull

end Jungle
