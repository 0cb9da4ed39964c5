/-
  The invariant of the log section and its preservation by every operation.
-/
import Verif.Log.LogMgr
import Verif.Log.MemLemmas

namespace Jungle
open Spec
set_option linter.unusedSectionVars false

variable {K : Type} [LinearOrder K]

/-- Records of a file above its flush mark. -/
def LogFile.pending (f : LogFile K) : List (Rec K) :=
  f.mem.bySeq.filter (fun r => !(valid f.mem.flushedSeqNum && decide (r.seq ≤ f.mem.flushedSeqNum)))

/-- `f` comes before `g` in the list of log files. -/
structure Before (f g : LogFile K) : Prop where
  num : f.num < g.num
  max : f.mem.maxSeqNum ≠ NIL → g.mem.maxSeqNum ≠ NIL ∧ f.mem.maxSeqNum ≤ g.mem.maxSeqNum
  recs : f.mem.maxSeqNum ≠ NIL → ∀ r ∈ g.mem.bySeq, f.mem.maxSeqNum < r.seq
  min : f.mem.maxSeqNum ≠ NIL → g.mem.minSeqNum ≠ NIL → f.mem.maxSeqNum < g.mem.minSeqNum
  synced : f.mem.maxSeqNum ≠ NIL → g.mem.syncedSeqNum ≠ NIL → f.mem.maxSeqNum ≤ g.mem.syncedSeqNum
  start : f.mem.maxSeqNum ≠ NIL → f.mem.maxSeqNum < g.startSeq
  flushed : g.mem.flushedSeqNum = NIL
  startLe : f.startSeq ≤ g.startSeq
  ne : f.mem.maxSeqNum ≠ NIL

/-- The numbers a file may hold start at its index position. -/
structure LogFile.Own (f : LogFile K) : Prop where
  recs : ∀ r ∈ f.mem.bySeq, f.startSeq ≤ r.seq
  max : f.mem.maxSeqNum ≠ NIL → f.startSeq ≤ f.mem.maxSeqNum + 1
  nil : f.mem.maxSeqNum = NIL → f.startSeq ≤ 1

/-- The invariant of the log section.  `A`: the accepted records that are below the flush
    mark (they live in tables), `B`: the accepted records the log section still answers for. -/
structure LogInv (l : LogMgr K) (A B : List (Rec K)) : Prop where
  rw : l.cfg.readOnly = false
  noOv : l.cfg.allowOverwrite = false
  bar : l.barrier = 0
  ne : l.files ≠ []
  nums : ∃ a, l.files.map (·.num) = List.range' a l.files.length ∧
    l.maxNum + 1 = a + l.files.length
  numN : l.maxNum < NIL
  wf : ∀ f ∈ l.files, f.mem.WF
  own : ∀ f ∈ l.files, f.Own
  entries : 0 < l.cfg.maxEntries
  emptyW : ∀ f ∈ l.files, f.mem.maxSeqNum = NIL → f.immutable = false
  emptyS : ∀ f ∈ l.files, f.mem.maxSeqNum = NIL → f.mem.startSeqNum ≤ 1
  order : l.files.Pairwise Before
  lastF : l.lastFlushed = NIL ∨ l.lastFlushed = l.minNum
  lastS : l.lastSynced = NIL ∨ (l.minNum ≤ l.lastSynced ∧ l.lastSynced ≤ l.maxNum)
  syncedLe : l.lastSynced ≠ NIL → ∀ f ∈ l.files,
    (f.num < l.lastSynced ∨ (f.num = l.lastSynced ∧ l.minNum < l.lastSynced)) →
    f.mem.maxSeqNum ≠ NIL → f.mem.syncedSeqNum ≠ NIL
  mark : ∀ f fs, l.files = f :: fs → ∀ r ∈ A, f.mem.flushedSeqNum ≠ NIL ∧ r.seq ≤ f.mem.flushedSeqNum
  pend : B = l.files.flatMap LogFile.pending
  inc : Increasing (A ++ B)
  top : ∀ fs f, l.files = fs ++ [f] →
    (f.mem.maxSeqNum = NIL → A ++ B = [] ∧ fs = []) ∧
    (f.mem.maxSeqNum ≠ NIL → ∀ r ∈ A ++ B, r.seq ≤ f.mem.maxSeqNum)

namespace LogInv
variable {l : LogMgr K} {A B : List (Rec K)}

theorem split_last (h : LogInv l A B) : ∃ fs f, l.files = fs ++ [f] :=
  ⟨l.files.dropLast, l.files.getLast h.ne, (List.dropLast_concat_getLast h.ne).symm⟩

theorem num_get (h : LogInv l A B) : ∃ a, l.maxNum + 1 = a + l.files.length ∧
    ∀ i (hi : i < l.files.length), (l.files[i]).num = a + i := by
  obtain ⟨a, h1, h2⟩ := h.nums
  refine ⟨a, h2, fun i hi => ?_⟩
  have : (l.files.map (·.num))[i]? = (List.range' a l.files.length)[i]? := by rw [h1]
  simpa [hi, List.getElem?_range'] using this

theorem minNum_eq (h : LogInv l A B) : l.minNum + l.files.length = l.maxNum + 1 := by
  obtain ⟨a, h1, h2⟩ := h.num_get
  have hne := h.ne
  unfold LogMgr.minNum
  cases hf : l.files with
  | nil => exact absurd hf hne
  | cons f fs =>
    have := h2 0 (by rw [hf]; simp)
    simp only [hf, List.getElem_cons_zero] at this
    simp only [hf] at h1 ⊢
    omega

theorem num_eq (h : LogInv l A B) (i : Nat) (hi : i < l.files.length) :
    (l.files[i]).num = l.minNum + i := by
  obtain ⟨a, h1, h2⟩ := h.num_get
  have := h.minNum_eq
  rw [h2 i hi]; omega

theorem last_num (h : LogInv l A B) {fs f} (hf : l.files = fs ++ [f]) : f.num = l.maxNum := by
  have h1 := h.num_eq fs.length (by rw [hf]; simp)
  have h2 := h.minNum_eq
  simp [hf] at h1 h2
  omega

theorem num_range (h : LogInv l A B) {f} (hf : f ∈ l.files) :
    l.minNum ≤ f.num ∧ f.num ≤ l.maxNum := by
  obtain ⟨i, hi, rfl⟩ := List.getElem_of_mem hf
  have := h.num_eq i hi
  have := h.minNum_eq
  omega

theorem getLastFlushedLog_eq (h : LogInv l A B) : l.getLastFlushedLog = l.minNum := by
  unfold LogMgr.getLastFlushedLog
  rcases h.lastF with h1 | h1
  · rw [if_pos h1]
  · have := h.numN
    have := h.minNum_eq
    have : 0 < l.files.length := List.length_pos_iff.2 h.ne
    rw [if_neg (by omega), h1]

theorem minNum_lt (h : LogInv l A B) : l.minNum < NIL := by
  have := h.numN
  have := h.minNum_eq
  have : 0 < l.files.length := List.length_pos_iff.2 h.ne
  omega

end LogInv

theorem find_num_append {fs gs : List (LogFile K)} {f : LogFile K}
    (h : ∀ g ∈ fs, g.num ≠ f.num) :
    (fs ++ f :: gs).find? (fun g => g.num == f.num) = some f := by
  rw [List.find?_append]
  have : fs.find? (fun g => g.num == f.num) = none := by
    rw [List.find?_eq_none]; intro g hg; simp [h g hg]
  rw [this]; simp

/-- Looking up a file that is in the list. -/
theorem LogInv.file?_mem {l : LogMgr K} {A B} (h : LogInv l A B) {f} (hf : f ∈ l.files) :
    l.file? f.num = some f := by
  obtain ⟨fs, gs, e⟩ := List.append_of_mem hf
  unfold LogMgr.file?
  rw [e]
  apply find_num_append
  intro g hg
  have ho := h.order
  rw [e] at ho
  have := (List.pairwise_append.1 ho).2.2 g hg f List.mem_cons_self
  exact Nat.ne_of_lt this.num

theorem LogInv.file?_num {l : LogMgr K} {A B} (h : LogInv l A B) {n : Nat}
    (h1 : l.minNum ≤ n) (h2 : n ≤ l.maxNum) : ∃ f ∈ l.files, f.num = n ∧ l.file? n = some f := by
  have h3 := h.minNum_eq
  have hi : n - l.minNum < l.files.length := by omega
  have hn := h.num_eq _ hi
  have hm := List.getElem_mem hi
  refine ⟨_, hm, by omega, ?_⟩
  have := h.file?_mem hm
  rwa [hn, show l.minNum + (n - l.minNum) = n by omega] at this

theorem map_replace_last {fs : List (LogFile K)} {f f' : LogFile K} (hn : f'.num = f.num)
    (h : ∀ g ∈ fs, g.num ≠ f.num) :
    (fs ++ [f]).map (fun g => if g.num == f'.num then f' else g) = fs ++ [f'] := by
  rw [List.map_append]
  congr 1
  · conv => rhs; rw [← List.map_id fs]
    apply List.map_congr_left
    intro g hg
    simp [hn, h g hg]
  · simp [hn]

/-! ### reading -/

theorem lastWrite_pending {f : LogFile K} (h : f.mem.Look) (k : K) :
    lastWrite f.pending k =
      match lastWrite f.mem.bySeq k with
      | none => none
      | some r => if f.mem.flushedSeqNum ≠ NIL ∧ r.seq ≤ f.mem.flushedSeqNum then none else some r := by
  have hk : keyRecs f.pending k =
      (keyRecs f.mem.bySeq k).filter
        (fun r => !(valid f.mem.flushedSeqNum && decide (r.seq ≤ f.mem.flushedSeqNum))) := by
    simp only [keyRecs, LogFile.pending, List.filter_filter]
    congr 1; funext r; rw [Bool.and_comm]
  have hinc : (keyRecs f.mem.bySeq k).Pairwise (fun a b => a.seq < b.seq) :=
    List.Pairwise.sublist List.filter_sublist h.sorted
  rw [lastWrite_eq, lastWrite_eq, hk]
  generalize keyRecs f.mem.bySeq k = L at hinc
  rcases List.eq_nil_or_concat L with rfl | ⟨L', r, rfl⟩
  · rfl
  · rw [List.concat_eq_append] at hinc ⊢
    rw [List.filter_append, List.getLast?_append]
    simp only [List.getLast?_append, List.getLast?_singleton, Option.some_or]
    by_cases hc : f.mem.flushedSeqNum ≠ NIL ∧ r.seq ≤ f.mem.flushedSeqNum
    · rw [if_pos hc]
      have hv := valid_iff.2 hc.1
      have : L'.filter (fun r => !(valid f.mem.flushedSeqNum && decide (r.seq ≤ f.mem.flushedSeqNum))) = [] := by
        rw [List.filter_eq_nil_iff]
        intro x hx
        have := (List.pairwise_append.1 hinc).2.2 x hx r (by simp)
        simp [hv]; omega
      rw [this]
      simp [hv, hc.2]
    · rw [if_neg hc]
      have : (!(valid f.mem.flushedSeqNum && decide (r.seq ≤ f.mem.flushedSeqNum))) = true := by
        by_cases hv : f.mem.flushedSeqNum = NIL
        · simp [valid, hv]
        · have : ¬ r.seq ≤ f.mem.flushedSeqNum := fun h => hc ⟨hv, h⟩
          simp [this]
      rw [List.filter_cons, if_pos this]; rfl

theorem getFrom_live (k : K) (fs : List (LogFile K)) (h : ∀ f ∈ fs, f.mem.Look) :
    LogMgr.getFrom 0 NIL true false k fs.reverse = lastWrite (fs.flatMap LogFile.pending) k := by
  suffices H : ∀ gs : List (LogFile K), (∀ f ∈ gs, f.mem.Look) →
      LogMgr.getFrom 0 NIL true false k gs =
        lastWrite (gs.reverse.flatMap LogFile.pending) k by
    have := H fs.reverse (fun f hf => h f (List.mem_reverse.1 hf))
    rwa [List.reverse_reverse] at this
  intro gs hg
  induction gs with
  | nil => rfl
  | cons f gs ih =>
    have ih := ih (fun g hg' => hg g (List.mem_cons_of_mem _ hg'))
    simp only [LogMgr.getFrom, if_true]
    rw [List.reverse_cons, List.flatMap_append, lastWrite_append]
    simp only [List.flatMap_cons, List.flatMap_nil, List.append_nil]
    have hwf := hg f List.mem_cons_self
    simp only [ne_eq, not_true, if_false]
    rw [MemTable.get_live hwf, lastWrite_pending hwf, ← ih]
    cases lastWrite f.mem.bySeq k with
    | none => simp
    | some r =>
      by_cases hc : f.mem.flushedSeqNum ≠ NIL ∧ r.seq ≤ f.mem.flushedSeqNum
      · simp only [if_pos hc]; simp
      · simp only [if_neg hc]; simp

theorem getFrom_logOnly (k : K) (fs : List (LogFile K)) (h : ∀ f ∈ fs, f.mem.Look) :
    LogMgr.getFrom 0 NIL false false k fs.reverse = lastWrite (fs.flatMap LogFile.pending) k := by
  suffices H : ∀ gs : List (LogFile K), (∀ f ∈ gs, f.mem.Look) →
      LogMgr.getFrom 0 NIL false false k gs =
        lastWrite (gs.reverse.flatMap LogFile.pending) k by
    have := H fs.reverse (fun f hf => h f (List.mem_reverse.1 hf))
    rwa [List.reverse_reverse] at this
  intro gs hg
  induction gs with
  | nil => rfl
  | cons f gs ih =>
    have ih := ih (fun g hg' => hg g (List.mem_cons_of_mem _ hg'))
    simp only [LogMgr.getFrom]
    rw [List.reverse_cons, List.flatMap_append, lastWrite_append]
    simp only [List.flatMap_cons, List.flatMap_nil, List.append_nil]
    have hwf := hg f List.mem_cons_self
    rw [if_neg (by simp), MemTable.get_equal hwf, lastWrite_pending hwf, ← ih, if_pos rfl]
    cases lastWrite f.mem.bySeq k with
    | none => simp
    | some r =>
      by_cases hc : f.mem.flushedSeqNum ≠ NIL ∧ r.seq ≤ f.mem.flushedSeqNum
      · simp [hc]
      · have : ¬ (f.mem.flushedSeqNum ≠ NIL ∧ r.seq ≤ f.mem.flushedSeqNum ∧ false = false) := by
          simpa using hc
        show (match (if f.mem.flushedSeqNum ≠ NIL ∧ r.seq ≤ f.mem.flushedSeqNum ∧ false = false
          then (Status.keyNotFound, (none : Option (Rec K))) else (Status.ok, some r)) with
          | (Status.ok, some r) => some r
          | _ => LogMgr.getFrom 0 NIL false false k gs) =
          (if f.mem.flushedSeqNum ≠ NIL ∧ r.seq ≤ f.mem.flushedSeqNum then none else some r).or _
        rw [if_neg this, if_neg hc]; simp

theorem rangeUpto_all {fs : List (LogFile K)} {f : LogFile K} {e : Nat}
    (h1 : ∀ g ∈ fs, g.num < e) :
    LogMgr.rangeUpto e (fs ++ [f]) = fs ++ [f] := by
  induction fs with
  | nil => simp [LogMgr.rangeUpto]
  | cons g fs ih =>
    have := h1 g List.mem_cons_self
    simp only [List.cons_append, LogMgr.rangeUpto]
    rw [if_neg (by omega), ih (fun x hx => h1 x (List.mem_cons_of_mem _ hx))]

theorem LogInv.fileRange_all {l : LogMgr K} {A B} (h : LogInv l A B) :
    l.fileRange l.minNum l.maxNum = l.files := by
  obtain ⟨fs, f, e⟩ := h.split_last
  unfold LogMgr.fileRange
  have : l.files.dropWhile (fun f => decide (f.num < l.minNum)) = l.files := by
    cases hf : l.files with
    | nil => rfl
    | cons g gs =>
      have := (h.num_range (f := g) (by rw [hf]; simp)).1
      rw [List.dropWhile_cons, if_neg (by simpa using this)]
  rw [this, e]
  apply rangeUpto_all
  intro g hg
  have ho := h.order
  rw [e] at ho
  have := (List.pairwise_append.1 ho).2.2 g hg f (by simp)
  rw [← h.last_num e]; exact this.num

/-- A lookup in the log section returns the last pending write of the key. -/
theorem LogInv.get_eq {l : LogMgr K} {A B} (h : LogInv l A B) (k : K) :
    l.get k = match lastWrite B k with
      | some r => (.ok, some r)
      | none => (.keyNotFound, none) := by
  unfold LogMgr.get
  simp only [h.getLastFlushedLog_eq]
  rw [if_neg (by have := h.minNum_lt; have := h.numN; omega), h.fileRange_all, h.bar]
  have hfil : l.files.filter (fun f => decide (l.minNum ≤ f.num ∧ f.num ≤ l.maxNum)) = l.files := by
    rw [List.filter_eq_self]
    intro f hf; simpa using h.num_range hf
  rw [hfil, getFrom_live k _ (fun f hf => (h.wf f hf).look), getFrom_logOnly k _ (fun f hf => (h.wf f hf).look), h.pend]
  simp only [ite_self]
  cases lastWrite (l.files.flatMap LogFile.pending) k <;> rfl

/-! ### writing -/

theorem pending_put {f f' : LogFile K} {r : Rec K} {s : Nat} (hwf : f.mem.WF)
    (hp : MemTable.PutOk f.mem f'.mem r s)
    (hgt : f.mem.maxSeqNum = NIL ∨ f.mem.maxSeqNum < s) :
    f'.pending = f.pending ++ [MemTable.accepted r s] := by
  unfold LogFile.pending
  rw [hp.flushed, hp.bySeq, List.filter_append]
  congr 1
  rw [List.filter_cons, List.filter_nil, if_pos]
  have : ¬ (f.mem.flushedSeqNum ≠ NIL ∧ s ≤ f.mem.flushedSeqNum) := by
    rintro ⟨h1, h2⟩
    rcases hwf.flushed with h | h
    · exact h1 h
    · omega
  by_cases hv : f.mem.flushedSeqNum = NIL
  · simp [valid, hv]
  · have h2 : ¬ s ≤ f.mem.flushedSeqNum := fun h => this ⟨hv, h⟩
    simp [MemTable.accepted, h2]

theorem minNum_snoc {l l' : LogMgr K} {fs : List (LogFile K)} {f f' : LogFile K}
    (h : l.files = fs ++ [f]) (h' : l'.files = fs ++ [f']) (hn : f'.num = f.num) :
    l'.minNum = l.minNum := by
  unfold LogMgr.minNum
  cases fs <;> simp [h, h', hn]

/-- A record stored in the newest file. -/
theorem LogInv.put_last {l : LogMgr K} {A B} (h : LogInv l A B) {fs f f'} {r : Rec K} {s : Nat}
    (hf : l.files = fs ++ [f]) (hn : f'.num = f.num) (hst : f'.startSeq = f.startSeq)
    (hp : MemTable.PutOk f.mem f'.mem r s) (h0 : 0 < s) (hN : s < NIL)
    (hgt : f.mem.maxSeqNum = NIL ∨ f.mem.maxSeqNum < s) :
    LogInv { l with files := fs ++ [f'] } A (B ++ [MemTable.accepted r s]) := by
  have hord := h.order
  rw [hf] at hord
  have hord' := List.pairwise_append.1 hord
  have hff : f ∈ l.files := by rw [hf]; simp
  have htop := h.top fs f hf
  have hlt : ∀ x ∈ A ++ B, x.seq < s := by
    intro x hx
    rcases hgt with hg | hg
    · rw [(htop.1 hg).1] at hx; cases hx
    · have := htop.2 (by omega) x hx; omega
  refine ⟨h.rw, h.noOv, h.bar, by simp, ?_, h.numN, ?_, ?_, h.entries, ?_, ?_, ?_, ?_, ?_, ?_, ?_, ?_, ?_, ?_⟩
  · obtain ⟨a, h1, h2⟩ := h.nums
    refine ⟨a, ?_, ?_⟩
    · simpa [hf, hn] using h1
    · simpa [hf] using h2
  · intro g hg
    simp only [List.mem_append, List.mem_singleton] at hg
    rcases hg with hg | rfl
    · exact h.wf g (by rw [hf]; simp [hg])
    · exact hp.wf
  · intro g hg
    simp only [List.mem_append, List.mem_singleton] at hg
    rcases hg with hg | rfl
    · exact h.own g (by rw [hf]; simp [hg])
    · have ho := h.own f hff
      have hss : f.startSeq ≤ s := by
        rcases hgt with hg | hg
        · have := ho.nil hg; omega
        · have := ho.max (by omega); omega
      refine ⟨?_, ?_, ?_⟩
      · intro x hx
        rw [hp.bySeq] at hx
        simp only [List.mem_append, List.mem_singleton] at hx
        rw [hst]
        rcases hx with hx | rfl
        · exact ho.recs x hx
        · exact hss
      · intro _; rw [hp.max, hst]; omega
      · intro hm; rw [hp.max] at hm; omega
  · intro g hg hm
    simp only [List.mem_append, List.mem_singleton] at hg
    rcases hg with hg | rfl
    · exact h.emptyW g (by rw [hf]; simp [hg]) hm
    · rw [hp.max] at hm; omega
  · intro g hg hm
    simp only [List.mem_append, List.mem_singleton] at hg
    rcases hg with hg | rfl
    · exact h.emptyS g (by rw [hf]; simp [hg]) hm
    · rw [hp.max] at hm; omega
  · refine List.pairwise_append.2 ⟨hord'.1, List.pairwise_singleton _ _, ?_⟩
    intro g hg x hx
    simp only [List.mem_singleton] at hx; subst hx
    have hb := hord'.2.2 g hg f (by simp)
    refine ⟨by rw [hn]; exact hb.num, ?_, ?_, ?_, ?_, ?_, ?_, by rw [hst]; exact hb.startLe, hb.ne⟩
    · intro hm
      have := hb.max hm
      rw [hp.max]; omega
    · intro hm x hx
      have h1 := hb.max hm
      rw [hp.bySeq] at hx
      simp only [List.mem_append, List.mem_singleton] at hx
      rcases hx with hx | rfl
      · exact hb.recs hm x hx
      · simp only [MemTable.accepted]; omega
    · intro hm hmin
      have h1 := hb.max hm
      rw [hp.min, if_neg h1.1] at hmin ⊢
      exact hb.min hm hmin
    · intro hm hsy
      rw [hp.synced] at hsy ⊢
      exact hb.synced hm hsy
    · intro hm; rw [hst]; exact hb.start hm
    · rw [hp.flushed]; exact hb.flushed
  · simp only [minNum_snoc hf (l' := { l with files := fs ++ [f'] }) rfl hn]; exact h.lastF
  · simp only [minNum_snoc hf (l' := { l with files := fs ++ [f'] }) rfl hn]; exact h.lastS
  · intro hs g hg hlt' hne
    simp only [minNum_snoc hf (l' := { l with files := fs ++ [f'] }) rfl hn] at hlt'
    simp only [List.mem_append, List.mem_singleton] at hg
    rcases hg with hg | rfl
    · exact h.syncedLe hs g (by rw [hf]; simp [hg]) hlt' hne
    · have h1 := h.last_num hf
      have hfm : f.mem.maxSeqNum ≠ NIL := by
        intro hm
        have hfs := (htop.1 hm).2
        have h3 : l.minNum = f.num := by unfold LogMgr.minNum; rw [hf, hfs]; rfl
        rcases h.lastS with h2 | h2
        · exact hs h2
        · omega
      rw [hp.synced]
      exact h.syncedLe hs f hff (by rw [← hn]; exact hlt') hfm
  · intro g gs hg x hx
    cases fs with
    | nil =>
      simp only [List.nil_append, List.cons.injEq] at hg
      obtain ⟨rfl, -⟩ := hg
      rw [hp.flushed]; exact h.mark f [] hf x hx
    | cons a as =>
      simp only [List.cons_append, List.cons.injEq] at hg
      obtain ⟨rfl, -⟩ := hg
      exact h.mark a (as ++ [f]) hf x hx
  · rw [List.flatMap_append, h.pend, hf, List.flatMap_append]
    simp only [List.flatMap_cons, List.flatMap_nil, List.append_nil]
    rw [pending_put (h.wf f hff) hp hgt, List.append_assoc]
  · rw [← List.append_assoc]
    refine List.pairwise_append.2 ⟨h.inc, List.pairwise_singleton _ _, ?_⟩
    intro a ha b hb
    simp only [List.mem_singleton] at hb; subst hb
    exact hlt a ha
  · intro gs g hg
    have hg := List.append_inj' hg (by simp)
    have : g = f' := by simpa using hg.2.symm
    subst this
    refine ⟨fun hm => absurd hm (by rw [hp.max]; omega), fun _ x hx => ?_⟩
    rw [hp.max]
    rw [← List.append_assoc, List.mem_append] at hx
    rcases hx with hx | hx
    · exact Nat.le_of_lt (hlt x hx)
    · simp only [List.mem_singleton] at hx; subst hx; exact Nat.le_refl _

/-- A record stored in a new file. -/
theorem LogInv.put_new {l : LogMgr K} {A B} (h : LogInv l A B) {fs f f'} {r : Rec K} {s st : Nat}
    (hf : l.files = fs ++ [f]) (hn : f'.num = l.maxNum + 1)
    (hfm : f.mem.maxSeqNum ≠ NIL) (hst : f'.startSeq = f.mem.maxSeqNum + 1)
    (hp : MemTable.PutOk (MemTable.init st) f'.mem r s) (hN : s < NIL)
    (hroom : l.maxNum + 1 < NIL)
    (hgt : f.mem.maxSeqNum < s) :
    LogInv { l with files := fs ++ [f] ++ [f'], maxNum := l.maxNum + 1 } A
      (B ++ [MemTable.accepted r s]) := by
  have hord := h.order
  rw [hf] at hord
  have hord' := List.pairwise_append.1 hord
  have hff : f ∈ l.files := by rw [hf]; simp
  have htop := h.top fs f hf
  have hlt : ∀ x ∈ A ++ B, x.seq < s := by
    intro x hx
    have := htop.2 hfm x hx; omega
  have hmin : ({ l with files := fs ++ [f] ++ [f'], maxNum := l.maxNum + 1 } : LogMgr K).minNum = l.minNum := by
    unfold LogMgr.minNum
    cases fs <;> simp [hf]
  have hle : ∀ g ∈ fs ++ [f], g.mem.maxSeqNum ≠ NIL → g.mem.maxSeqNum < s ∧ g.mem.maxSeqNum < f'.startSeq := by
    intro g hg hm
    simp only [List.mem_append, List.mem_singleton] at hg
    rcases hg with hg | rfl
    · have h1 := (hord'.2.2 g hg f (by simp)).max hm
      omega
    · omega
  refine ⟨h.rw, h.noOv, h.bar, by simp, ?_, hroom, ?_, ?_, h.entries, ?_, ?_, ?_, ?_, ?_, ?_, ?_, ?_, ?_, ?_⟩
  · obtain ⟨a, h1, h2⟩ := h.nums
    refine ⟨a, ?_, ?_⟩
    · rw [hf] at h1
      rw [List.map_append, h1]
      have : (fs ++ [f] ++ [f']).length = (fs ++ [f]).length + 1 := by simp
      rw [this, List.range'_concat]
      simp [hn, hf] at h2 ⊢; omega
    · simp [hf] at h2 ⊢; omega
  · intro g hg
    simp only [List.mem_append, List.mem_singleton] at hg
    rcases hg with hg | rfl
    · exact h.wf g (by rw [hf]; simpa using hg)
    · exact hp.wf
  · intro g hg
    simp only [List.mem_append, List.mem_singleton] at hg
    rcases hg with hg | rfl
    · exact h.own g (by rw [hf]; simpa using hg)
    · refine ⟨?_, ?_, ?_⟩
      · intro x hx
        rw [hp.bySeq] at hx
        simp only [MemTable.init, List.nil_append, List.mem_singleton] at hx
        subst hx
        rw [hst]; exact hgt
      · intro _; rw [hp.max]; omega
      · intro hm; rw [hp.max] at hm; omega
  · intro g hg hm
    simp only [List.mem_append, List.mem_singleton] at hg
    rcases hg with hg | rfl
    · exact h.emptyW g (by rw [hf]; simpa using hg) hm
    · rw [hp.max] at hm; omega
  · intro g hg hm
    simp only [List.mem_append, List.mem_singleton] at hg
    rcases hg with hg | rfl
    · exact h.emptyS g (by rw [hf]; simpa using hg) hm
    · rw [hp.max] at hm; omega
  · refine List.pairwise_append.2 ⟨hord, List.pairwise_singleton _ _, ?_⟩
    intro g hg x hx
    simp only [List.mem_singleton] at hx; subst hx
    refine ⟨?_, ?_, ?_, ?_, ?_, ?_, ?_, ?_, ?_⟩
    · have := (h.num_range (by rw [hf]; exact hg)).2
      omega
    · intro hm; have := hle g hg hm; rw [hp.max]; omega
    · intro hm x hx
      rw [hp.bySeq] at hx
      simp only [MemTable.init, List.nil_append, List.mem_singleton] at hx
      subst hx
      exact (hle g hg hm).1
    · intro hm _
      rw [hp.min]
      simp only [MemTable.init, if_true]
      exact (hle g hg hm).1
    · intro hm hsy
      rw [hp.synced] at hsy; exact absurd rfl hsy
    · intro hm; exact (hle g hg hm).2
    · rw [hp.flushed]; rfl
    · rw [hst]
      simp only [List.mem_append, List.mem_singleton] at hg
      have h1 := (h.own f hff).max hfm
      rcases hg with hg | rfl
      · have := (hord'.2.2 g hg f (by simp)).startLe; omega
      · omega
    · simp only [List.mem_append, List.mem_singleton] at hg
      rcases hg with hg | rfl
      · exact (hord'.2.2 g hg f (by simp)).ne
      · exact hfm
  · rw [hmin]; exact h.lastF
  · rw [hmin]
    rcases h.lastS with h1 | h1
    · exact Or.inl h1
    · exact Or.inr ⟨h1.1, by simp only []; omega⟩
  · intro hs g hg hlt' hne
    rw [hmin] at hlt'
    simp only [List.mem_append, List.mem_singleton] at hg
    rcases hg with hg | rfl
    · exact h.syncedLe hs g (by rw [hf]; simpa using hg) hlt' hne
    · exfalso
      rcases h.lastS with h2 | h2
      · exact hs h2
      · simp only [] at hlt'; omega
  · intro g gs hg x hx
    cases fs with
    | nil =>
      simp only [List.nil_append, List.cons_append, List.cons.injEq] at hg
      obtain ⟨rfl, -⟩ := hg
      exact h.mark f [] hf x hx
    | cons a as =>
      simp only [List.cons_append, List.cons.injEq] at hg
      obtain ⟨rfl, -⟩ := hg
      exact h.mark a (as ++ [f]) hf x hx
  · rw [List.flatMap_append, h.pend, hf]
    simp only [List.flatMap_cons, List.flatMap_nil, List.append_nil]
    congr 1
    unfold LogFile.pending
    rw [hp.flushed, hp.bySeq]
    simp [MemTable.init, valid]
  · rw [← List.append_assoc]
    refine List.pairwise_append.2 ⟨h.inc, List.pairwise_singleton _ _, ?_⟩
    intro a ha b hb
    simp only [List.mem_singleton] at hb; subst hb
    exact hlt a ha
  · intro gs g hg
    have hg := List.append_inj' hg (by simp)
    have : g = f' := by simpa using hg.2.symm
    subst this
    refine ⟨fun hm => absurd hm (by rw [hp.max]; omega), fun _ x hx => ?_⟩
    rw [hp.max]
    rw [← List.append_assoc, List.mem_append] at hx
    rcases hx with hx | hx
    · exact Nat.le_of_lt (hlt x hx)
    · simp only [List.mem_singleton] at hx; subst hx; exact Nat.le_refl _

theorem LogInv.getMax_eq {l : LogMgr K} {A B} (h : LogInv l A B) {fs f}
    (hf : l.files = fs ++ [f]) :
    l.getMaxSeqNum = if f.mem.maxSeqNum ≠ NIL then some f.mem.maxSeqNum else none := by
  have hl := h.last_num hf
  have hfi : l.file? l.maxNum = some f := by
    rw [← hl]; exact h.file?_mem (by rw [hf]; simp)
  unfold LogMgr.getMaxSeqNum
  rw [h.bar, if_neg (by simp)]
  have hlen : l.files.length = fs.length + 1 := by rw [hf]; simp
  rw [hlen]
  simp only [LogMgr.getMaxSeqNum.go, hfi]
  by_cases hm : f.mem.maxSeqNum = NIL
  · have hfs := ((h.top fs f hf).1 hm).2
    subst hfs
    simp [hm, LogMgr.getMaxSeqNum.go]
  · simp [hm]

theorem LogFile.setSN_eq {cfg : Cfg} (hc : cfg.allowOverwrite = false) (f : LogFile K) (r : Rec K) :
    f.setSN cfg r = ((f.mem.putNewRecord cfg r).1, { f with mem := (f.mem.putNewRecord cfg r).2 }) := by
  unfold LogFile.setSN; simp [hc]

theorem LogInv.setFile_last {l : LogMgr K} {A B} (h : LogInv l A B) {fs f f'}
    (hf : l.files = fs ++ [f]) (hn : f'.num = f.num) :
    l.setFile f' = { l with files := fs ++ [f'] } := by
  have hord := h.order
  rw [hf] at hord
  unfold LogMgr.setFile
  rw [hf, map_replace_last hn]
  intro g hg
  exact Nat.ne_of_lt ((List.pairwise_append.1 hord).2.2 g hg f (by simp)).num

/-- The number the next automatic write gets. -/
def LogMgr.nextSeq (l : LogMgr K) : Nat :=
  match l.files.getLast? with
  | none => 1
  | some f => f.mem.next

/-- How one accepted record changes the list of files: the newest file gets it, or a new file. -/
inductive PutStep (l : LogMgr K) : LogMgr K → Prop
  | same {fs : List (LogFile K)} {f : LogFile K} {m' : MemTable K} {r : Rec K} {s : Nat} :
      l.files = fs ++ [f] → MemTable.PutOk f.mem m' r s → 0 < s → s < NIL →
      (f.mem.maxSeqNum = NIL ∨ f.mem.maxSeqNum < s) →
      PutStep l { l with files := fs ++ [{ f with mem := m' }] }
  | new {fs : List (LogFile K)} {f : LogFile K} {m' : MemTable K} {r : Rec K} {s : Nat} :
      l.files = fs ++ [f] → f.mem.maxSeqNum ≠ NIL →
      MemTable.PutOk (MemTable.init (inc64 f.mem.maxSeqNum)) m' r s → 0 < s → s < NIL →
      PutStep l { l with files := fs ++ [f] ++ [{ num := l.maxNum + 1, startSeq := inc64 f.mem.maxSeqNum, mem := m' }], maxNum := l.maxNum + 1 }

/-- Several records stored in the newest file one after the other. -/
inductive PutSteps : LogMgr K → LogMgr K → Prop
  | refl {l : LogMgr K} : PutSteps l l
  | step {l l1 l2 : LogMgr K} : PutStep l l1 → l1.maxNum = l.maxNum → (∃ A B, LogInv l1 A B) →
      PutSteps l1 l2 → PutSteps l l2

/-- Outcome of one accepted write. -/
structure SetOk (l : LogMgr K) (r : Rec K) (A B : List (Rec K)) (l' : LogMgr K) (s : Nat) : Prop where
  inv : LogInv l' A (B ++ [MemTable.accepted r s])
  pos : 0 < s
  lt : s < NIL
  explicit : r.seq ≠ NIL → s = r.seq
  above : ∀ m, l.getMaxSeqNum = some m → m < s
  number : r.seq = NIL → s = l.getMaxSeqNum.getD 0 + 1
  max : l'.getMaxSeqNum = some s
  cfg : l'.cfg = l.cfg
  num : l'.maxNum ≤ l.maxNum + 1
  next : l'.nextSeq = s + 1
  step : PutStep l l'

/-- A number the caller may pass: none (if numbers are left), or one above the current
    maximum. -/
def LogMgr.seqOk (l : LogMgr K) (seq : Nat) : Prop :=
  (seq = NIL ∧ l.nextSeq < NIL) ∨ (0 < seq ∧ seq < NIL ∧ ∀ m, l.getMaxSeqNum = some m → m < seq)

theorem nextSeq_snoc {l : LogMgr K} {fs : List (LogFile K)} {f : LogFile K}
    (h : l.files = fs ++ [f]) : l.nextSeq = f.mem.next := by
  unfold LogMgr.nextSeq; rw [h]; simp

theorem MemTable.next_pos (m : MemTable K) : 0 < m.next := by
  unfold MemTable.next; split <;> (try split) <;> omega

theorem MemTable.PutOk.next {m m' : MemTable K} {r : Rec K} {s : Nat} (h : MemTable.PutOk m m' r s)
    (hN : s < NIL) : m'.next = s + 1 := by
  unfold MemTable.next; rw [h.max, if_neg (by omega)]

theorem LogInv.nextSeq_eq {l : LogMgr K} {A B} (h : LogInv l A B) :
    l.nextSeq = l.getMaxSeqNum.getD 0 + 1 := by
  obtain ⟨fs, f, hf⟩ := h.split_last
  rw [nextSeq_snoc hf, h.getMax_eq hf]
  unfold MemTable.next
  by_cases hm : f.mem.maxSeqNum = NIL
  · have := h.emptyS f (by rw [hf]; simp) hm
    have e : (if f.mem.maxSeqNum ≠ NIL then some f.mem.maxSeqNum else none) = none := by simp [hm]
    rw [if_pos hm, e, Option.getD_none]
    split <;> omega
  · rw [if_neg hm, if_pos hm]; rfl

theorem LogInv.putFile {l : LogMgr K} {A B} (h : LogInv l A B) {fs f} (hf : l.files = fs ++ [f])
    (r : Rec K) (hr : l.seqOk r.seq) :
    ∃ s m', f.mem.putNewRecord l.cfg r = (.ok, m') ∧
      SetOk l r A B { l with files := fs ++ [{ f with mem := m' }] } s := by
  have hff : f ∈ l.files := by rw [hf]; simp
  have hwf := h.wf f hff
  have hmax := h.getMax_eq hf
  have hcommon : ∀ s m', 0 < s → s < NIL → (f.mem.maxSeqNum = NIL ∨ f.mem.maxSeqNum < s) →
      (r.seq ≠ NIL → s = r.seq) → (r.seq = NIL → s = l.getMaxSeqNum.getD 0 + 1) →
      (∀ m, l.getMaxSeqNum = some m → m < s) →
      MemTable.PutOk f.mem m' r s → SetOk l r A B { l with files := fs ++ [{ f with mem := m' }] } s := by
    intro s m' h0 hN hgt hex hau hab hp
    have hi := h.put_last (f' := { f with mem := m' }) hf rfl rfl hp h0 hN hgt
    refine ⟨hi, h0, hN, hex, hab, hau, ?_, rfl, by simp only []; omega, ?_, .same hf hp h0 hN hgt⟩
    · rw [hi.getMax_eq (fs := fs) (f := { f with mem := m' }) rfl]
      simp only []
      rw [hp.max, if_pos (by omega)]
    · rw [nextSeq_snoc (fs := fs) (f := { f with mem := m' }) rfl]; exact hp.next hN
  rcases hr with ⟨hr, hnx⟩ | ⟨hr0, hrN, hra⟩
  · have hnext : f.mem.next < NIL := by rwa [nextSeq_snoc hf] at hnx
    have hgt : f.mem.maxSeqNum = NIL ∨ f.mem.maxSeqNum < f.mem.next := by
      unfold MemTable.next; split
      · next e => exact Or.inl e
      · exact Or.inr (by omega)
    obtain ⟨m', he, hp⟩ := MemTable.put_auto (cfg := l.cfg) hwf hr hnext
    refine ⟨_, m', he, hcommon _ m' f.mem.next_pos hnext hgt (fun h => absurd hr h)
      (fun _ => by rw [← h.nextSeq_eq, nextSeq_snoc hf]) ?_ hp⟩
    · intro m hm
      have := h.nextSeq_eq
      rw [hm, nextSeq_snoc hf] at this
      simp only [Option.getD_some] at this
      omega
  · have hgt : f.mem.maxSeqNum = NIL ∨ f.mem.maxSeqNum < r.seq := by
      by_cases hm : f.mem.maxSeqNum = NIL
      · exact Or.inl hm
      · rw [if_pos hm] at hmax
        exact Or.inr (hra _ hmax)
    obtain ⟨m', he, hp⟩ := MemTable.put_explicit (cfg := l.cfg) hwf hr0 hrN hgt
    exact ⟨_, m', he, hcommon _ m' hr0 hrN hgt (fun _ => rfl) (fun h => absurd h (by omega))
      hra hp⟩

/-- Every write with an admissible number is accepted. -/
theorem LogInv.setSN {l : LogMgr K} {A B} (h : LogInv l A B) (r : Rec K) (se : Bool)
    (hr : l.seqOk r.seq) (hroom : l.maxNum + 1 < NIL)
    (hse : l.getMaxSeqNum = none → se = false) :
    ∃ s l', l.setSN r se = (.ok, l') ∧ SetOk l r A B l' s := by
  obtain ⟨fs, f, hf⟩ := h.split_last
  have hff : f ∈ l.files := by rw [hf]; simp
  have hfi : l.file? l.maxNum = some f := by
    rw [← h.last_num hf]; exact h.file?_mem hff
  have hr0 : r.seq ≠ 0 := by
    rcases hr with hr | hr
    · rw [hr.1]; decide
    · omega
  have hmaxN : l.maxNum ≠ NIL := Nat.ne_of_lt h.numN
  unfold LogMgr.setSN
  rw [if_neg (by simp [h.rw]), if_neg hr0, if_neg hmaxN]
  simp only [h.noOv, Bool.and_false, Bool.false_eq_true, if_false, Option.orElse, hfi,
    Bool.false_and, Bool.not_false, Bool.and_true, LogFile.setSN_eq h.noOv]
  cases hv : f.isValidToWrite l.cfg se
  · -- rotation to a new file
    simp only [Bool.not_false, if_true]
    have hfm : f.mem.maxSeqNum ≠ NIL := by
      intro hm
      have h1 := h.getMax_eq hf
      rw [if_neg (by simp [hm])] at h1
      unfold LogFile.isValidToWrite at hv
      have hb := ((h.wf f hff).nil hm).1
      have := h.entries
      simp [hse h1, h.emptyW f hff hm, hb] at hv
      omega
    have hlt : f.mem.maxSeqNum ≠ NIL → f.mem.maxSeqNum < NIL := by
      intro hm; have := (h.wf f hff).le_nil; omega
    have hmax := h.getMax_eq hf
    have hst : f.mem.maxSeqNum ≠ NIL → inc64 f.mem.maxSeqNum = f.mem.maxSeqNum + 1 := by
      intro hm; exact inc64_of_lt (hlt hm)
    have hst2 : inc64 f.mem.maxSeqNum < NIL := by
      by_cases hm : f.mem.maxSeqNum = NIL
      · rw [hm]; decide
      · rw [hst hm]; rw [if_pos hm] at hmax
        rcases hr with ⟨-, hr⟩ | ⟨-, hr1, hr2⟩
        · rw [nextSeq_snoc hf] at hr; unfold MemTable.next at hr; rwa [if_neg hm] at hr
        · have := hr2 _ hmax; omega
    have hwf : (MemTable.init (inc64 f.mem.maxSeqNum) : MemTable K).WF := MemTable.WF.init _
    have hcommon : ∀ s m', 0 < s → s < NIL → (f.mem.maxSeqNum = NIL ∨ f.mem.maxSeqNum < s) →
        (r.seq ≠ NIL → s = r.seq) → (r.seq = NIL → s = l.getMaxSeqNum.getD 0 + 1) →
        (∀ m, l.getMaxSeqNum = some m → m < s) →
        MemTable.putNewRecord l.cfg (MemTable.init (inc64 f.mem.maxSeqNum)) r = (.ok, m') →
        MemTable.PutOk (MemTable.init (inc64 f.mem.maxSeqNum)) m' r s →
        ∃ s, SetOk l r A B ((l.addNewLogFile f).1.setFile { (l.addNewLogFile f).2 with mem := m' }) s := by
      intro s m' h0 hN hgt hex hau hab hput hp
      refine ⟨s, ?_⟩
      have hi := h.put_new (f' := { num := l.maxNum + 1, startSeq := inc64 f.mem.maxSeqNum, mem := m' })
        hf rfl hfm (hst hfm) hp hN hroom (by omega)
      have e : (l.addNewLogFile f).1.setFile { (l.addNewLogFile f).2 with mem := m' } =
          { l with files := fs ++ [f] ++ [{ num := l.maxNum + 1, startSeq := inc64 f.mem.maxSeqNum, mem := m' }], maxNum := l.maxNum + 1 } := by
        unfold LogMgr.addNewLogFile LogMgr.setFile LogFile.create
        simp only [hf]
        have hmr := map_replace_last (fs := fs ++ [f])
          (f := { num := l.maxNum + 1, startSeq := inc64 f.mem.maxSeqNum, mem := MemTable.init (inc64 f.mem.maxSeqNum) })
          (f' := { num := l.maxNum + 1, startSeq := inc64 f.mem.maxSeqNum, mem := m' }) rfl
        simp only [] at hmr
        rw [hmr]
        · intro g hg
          have := (h.num_range (by rw [hf]; exact hg)).2
          omega
      rw [e]
      refine ⟨hi, h0, hN, hex, hab, hau, ?_, rfl, by simp only []; omega, ?_, .new hf hfm hp h0 hN⟩
      · rw [hi.getMax_eq (fs := fs ++ [f]) rfl]
        simp only []
        rw [hp.max, if_pos (by omega)]
      · rw [nextSeq_snoc (fs := fs ++ [f]) rfl]; exact hp.next hN
    have key : ∃ m', MemTable.putNewRecord l.cfg (MemTable.init (inc64 f.mem.maxSeqNum)) r = (.ok, m') ∧
        ∃ s, SetOk l r A B ((l.addNewLogFile f).1.setFile { (l.addNewLogFile f).2 with mem := m' }) s := by
      rcases hr with ⟨hr, hnx⟩ | ⟨hr0, hrN, hra⟩
      · have hnext : (MemTable.init (inc64 f.mem.maxSeqNum) : MemTable K).next < NIL := by
          unfold MemTable.next MemTable.init
          simp only [if_true]
          split
          · decide
          · exact hst2
        obtain ⟨m', he, hp⟩ := MemTable.put_auto (cfg := l.cfg) hwf hr hnext
        have hnx' : f.mem.maxSeqNum ≠ NIL →
            (MemTable.init (inc64 f.mem.maxSeqNum) : MemTable K).next = f.mem.maxSeqNum + 1 := by
          intro hm
          unfold MemTable.next MemTable.init
          simp only [if_true, hst hm]
          rw [if_neg (by omega)]
        refine ⟨m', he, hcommon _ m' (MemTable.next_pos _) hnext ?_ (fun h => absurd hr h) ?_ ?_ he hp⟩
        · by_cases hm : f.mem.maxSeqNum = NIL
          · exact Or.inl hm
          · right; rw [hnx' hm]; omega
        · intro _
          rw [if_pos hfm] at hmax
          rw [hnx' hfm, hmax]; rfl
        · intro m hm
          rw [if_pos hfm] at hmax
          rw [hmax] at hm
          cases hm
          rw [hnx' hfm]; omega
      · have hgt : f.mem.maxSeqNum = NIL ∨ f.mem.maxSeqNum < r.seq := by
          by_cases hm : f.mem.maxSeqNum = NIL
          · exact Or.inl hm
          · rw [if_pos hm] at hmax
            exact Or.inr (hra _ hmax)
        obtain ⟨m', he, hp⟩ := MemTable.put_explicit (cfg := l.cfg) hwf hr0 hrN (Or.inl rfl)
        exact ⟨m', he, hcommon _ m' hr0 hrN hgt (fun _ => rfl) (fun h => absurd h (by omega))
          hra he hp⟩
    obtain ⟨m', he, s, hok⟩ := key
    have hmem : (l.addNewLogFile f).2.mem = MemTable.init (inc64 f.mem.maxSeqNum) := rfl
    have him : (l.addNewLogFile f).2.immutable = false := rfl
    rw [hmem, he]
    simp only [ne_eq, not_true, if_false, him]
    exact ⟨s, _, rfl, hok⟩
  · simp only [Bool.not_true, Bool.false_eq_true, if_false]
    have him : f.immutable = false := by
      unfold LogFile.isValidToWrite at hv
      simp at hv; exact hv.1.1
    obtain ⟨s, m', he, hok⟩ := h.putFile hf r hr
    rw [he]
    simp only [ne_eq, not_true, if_false, him, Bool.false_eq_true]
    refine ⟨s, _, rfl, ?_⟩
    have e := h.setFile_last (f' := { f with mem := m' }) hf rfl
    rw [him] at e hok
    rw [e]
    exact hok

end Jungle
