/-
  The invariant that relates the log files on disk to the log section in memory, and its
  preservation by writes, syncs, checkpoints and flushes.
-/
import Verif.Log.StoreLemmas

namespace Jungle
open Spec
set_option linter.unusedSectionVars false

variable {K : Type} [LinearOrder K]

/-- What the files hold on disk. -/
structure SInv (l : LogMgr K) : Prop where
  ok : ∀ f ∈ l.files, StoreOk f
  lo : ∀ f ∈ l.files, f.num < l.syncFrom → f.mem.syncedSeqNum = f.mem.maxSeqNum
  hi : ∀ f ∈ l.files, l.syncFrom < f.num → f.mem.syncedSeqNum = NIL
  disk : ∀ f ∈ l.files, f.num ≠ l.minNum → f.mem.syncedSeqNum ≠ NIL → f.disk ≠ []
  wr : ∀ f ∈ l.files, f.num = l.maxNum → f.immutable = false ∨ l.syncFrom = l.maxNum

theorem SInv.init (c : Cfg) : SInv (LogMgr.init c : LogMgr K) := by
  refine ⟨?_, ?_, ?_, ?_, ?_⟩ <;> intro f hf <;> simp only [LogMgr.init, List.mem_singleton] at hf <;> subst hf
  · exact StoreOk.create _ _ _
  · intro _; rfl
  · intro _; rfl
  · intro _ h; exact absurd rfl h
  · intro _; exact Or.inl rfl

theorem LogInv.syncFrom_range {l : LogMgr K} {A B} (h : LogInv l A B) :
    l.minNum ≤ l.syncFrom ∧ l.syncFrom ≤ l.maxNum := by
  unfold LogMgr.syncFrom
  have := h.min_le_max
  split
  · next hs =>
    rcases h.lastS with h1 | h1
    · exact absurd h1 hs
    · exact h1
  · omega

/-- Every file but the newest has records behind it. -/
theorem LogInv.ne_last {l : LogMgr K} {A B} (h : LogInv l A B) {f} (hf : f ∈ l.files)
    (hn : f.num < l.maxNum) : f.mem.maxSeqNum ≠ NIL := by
  intro hm
  have := h.empty_last hf hm
  omega

theorem SInv.stored_lo {l : LogMgr K} {A B} (s : SInv l) (h : LogInv l A B) {f} (hf : f ∈ l.files)
    (hn : f.num < l.syncFrom) : f.stored = f.pending := by
  have := h.syncFrom_range
  exact stored_full (s.ok f hf) (h.wf f hf) (h.ne_last hf (by omega)) (s.lo f hf hn)

theorem SInv.stored_hi {l : LogMgr K} (s : SInv l) {f} (hf : f ∈ l.files)
    (hn : l.syncFrom < f.num) : f.stored = [] :=
  stored_nil ((s.ok f hf).nil (s.hi f hf hn))

theorem minNum_snoc' {l l' : LogMgr K} {fs : List (LogFile K)} {f f' : LogFile K} {N : List (LogFile K)}
    (h : l.files = fs ++ [f]) (h' : l'.files = fs ++ [f'] ++ N) (hn : f'.num = f.num) : l'.minNum = l.minNum := by
  unfold LogMgr.minNum
  rw [h, h']
  cases fs with
  | nil => exact hn
  | cons a fs => rfl

theorem syncFrom_congr {l l' : LogMgr K} (h : l'.lastSynced = l.lastSynced) (hm : l'.minNum = l.minNum) :
    l'.syncFrom = l.syncFrom := by
  unfold LogMgr.syncFrom; rw [h, hm]

theorem SInv.put {l l' : LogMgr K} {A B} (s : SInv l) (h : LogInv l A B) (hp : PutStep l l') : SInv l' := by
  have hr := h.syncFrom_range
  cases hp with
  | @same fs f m' r q hf hput h0 hN hgt =>
    have hlast := h.last_num hf
    have hff : f ∈ l.files := by rw [hf]; simp
    have hmin := minNum_snoc' (l := l) (l' := { l with files := fs ++ [{ f with mem := m' }] }) (f' := { f with mem := m' }) (N := []) hf (by simp) rfl
    have hsf := syncFrom_congr (l := l) (l' := { l with files := fs ++ [{ f with mem := m' }] }) rfl hmin
    have cases' : ∀ x ∈ fs ++ [{ f with mem := m' }], (x ∈ l.files) ∨ x = { f with mem := m' } := by
      intro x hx
      rcases List.mem_append.1 hx with hx | hx
      · left; rw [hf]; simp [hx]
      · right; simpa using hx
    refine ⟨?_, ?_, ?_, ?_, ?_⟩ <;> intro x hx <;> rcases cases' x hx with hx | hx
    · exact s.ok x hx
    · subst hx; exact (s.ok f hff).put (h.wf f hff) hput hN hgt
    · rw [hsf]; exact s.lo x hx
    · rw [hsf]; subst hx; intro hlt; simp only [] at hlt; omega
    · rw [hsf]; exact s.hi x hx
    · rw [hsf]; subst hx; intro hlt; simp only [hput.synced]; exact s.hi f hff hlt
    · rw [hmin]; exact s.disk x hx
    · rw [hmin]; subst hx; simp only [hput.synced]; exact s.disk f hff
    · rw [hsf]; exact s.wr x hx
    · rw [hsf]; subst hx; exact s.wr f hff
  | @new fs f m' r q hf hm hput h0 hN =>
    have hmin := minNum_snoc' (l := l) (f' := f) (l' := { l with files := fs ++ [f] ++ [{ num := l.maxNum + 1, startSeq := inc64 f.mem.maxSeqNum, mem := m' }], maxNum := l.maxNum + 1 }) hf rfl rfl
    have hsf := syncFrom_congr (l := l) (l' := { l with files := fs ++ [f] ++ [{ num := l.maxNum + 1, startSeq := inc64 f.mem.maxSeqNum, mem := m' }], maxNum := l.maxNum + 1 }) rfl hmin
    have hok : StoreOk ({ num := l.maxNum + 1, startSeq := inc64 f.mem.maxSeqNum, mem := m' } : LogFile K) :=
      (StoreOk.create (K := K) (l.maxNum + 1) (inc64 f.mem.maxSeqNum) (inc64 f.mem.maxSeqNum)).put
        (MemTable.WF.init _) hput hN (Or.inl rfl)
    have hsy : m'.syncedSeqNum = NIL := hput.synced
    have cases' : ∀ x ∈ fs ++ [f] ++ [{ num := l.maxNum + 1, startSeq := inc64 f.mem.maxSeqNum, mem := m' }],
        (x ∈ l.files) ∨ x = { num := l.maxNum + 1, startSeq := inc64 f.mem.maxSeqNum, mem := m' } := by
      intro x hx
      rcases List.mem_append.1 hx with hx | hx
      · left; rw [hf]; exact hx
      · right; simpa using hx
    refine ⟨?_, ?_, ?_, ?_, ?_⟩ <;> intro x hx <;> rcases cases' x hx with hx | hx
    · exact s.ok x hx
    · subst hx; exact hok
    · rw [hsf]; exact s.lo x hx
    · rw [hsf]; subst hx; intro hlt; simp only [] at hlt; omega
    · rw [hsf]; exact s.hi x hx
    · subst hx; intro _; exact hsy
    · rw [hmin]; exact s.disk x hx
    · subst hx; intro _ hne; exact absurd hsy hne
    · intro e; have := (h.num_range hx).2; simp only [] at e; omega
    · subst hx; intro _; exact Or.inl rfl

/-! ### sync -/

/-- The newest file reports its maximum. -/
theorem syncFile_out {f : LogFile K} (h : StoreOk f) (him : f.immutable = false)
    (hm : f.mem.maxSeqNum ≠ NIL) (lnTo : Nat) : (LogMgr.syncFile 0 lnTo f).2 = f.mem.maxSeqNum := by
  have hd := flushMemTable_disk h.torn h.integ
  simp only [] at hd
  show (f.flushMemTable (if (0 : Nat) ≠ 0 then 0 else NIL)).2 = _
  rw [if_neg (by simp)]
  rcases hd.2.2 with ⟨-, -, h1⟩ | ⟨h1, -⟩ | ⟨-, -, h1⟩
  · rw [him] at h1; cases h1
  · exact absurd h1 (h.min hm)
  · exact h1

/-- The exact result of a sync. -/
theorem LogInv.sync_eq {l : LogMgr K} {A B} (h : LogInv l A B) (s : SInv l) :
    l.sync = (.ok, { l with files := l.files.map l.syncOne, lastSynced := l.maxNum }) := by
  have hr := h.syncFrom_range
  have hN := h.numN
  unfold LogMgr.sync
  rw [if_neg (by simp [h.rw]), if_neg (Nat.ne_of_lt h.numN)]
  simp only []
  have e : (if l.lastSynced ≠ NIL then l.lastSynced else l.minNum) = l.syncFrom := rfl
  rw [e, if_neg (by omega)]
  have e1 : ((l.files.map (fun f => if l.syncFrom ≤ f.num ∧ f.num ≤ l.maxNum then LogMgr.syncFile l.barrier l.maxNum f else (f, NIL))).map (·.1)) = l.files.map l.syncOne := by
    rw [List.map_map]
    apply List.map_congr_left
    intro f _
    show (if l.syncFrom ≤ f.num ∧ f.num ≤ l.maxNum then LogMgr.syncFile l.barrier l.maxNum f else (f, NIL)).1 = _
    unfold LogMgr.syncOne
    split <;> rfl
  rw [e1]
  have e2 : (l.files.map (fun f => if l.syncFrom ≤ f.num ∧ f.num ≤ l.maxNum then LogMgr.syncFile l.barrier l.maxNum f else (f, NIL))).foldl
      (fun acc fr => if fr.2 ≠ NIL then fr.1.num else acc) l.syncFrom = l.maxNum := by
    obtain ⟨fs, f, hf⟩ := h.split_last
    have hff : f ∈ l.files := by rw [hf]; simp
    have hlast := h.last_num hf
    rw [hf, List.map_append, List.foldl_append]
    simp only [List.map_cons, List.map_nil, List.foldl_cons, List.foldl_nil]
    have e3 : (if l.syncFrom ≤ f.num ∧ f.num ≤ l.maxNum then LogMgr.syncFile l.barrier l.maxNum f else (f, NIL)) = LogMgr.syncFile 0 l.maxNum f := by
      rw [if_pos (by omega), h.bar]
    rw [e3]
    by_cases hm : f.mem.maxSeqNum = NIL
    · have h1 := ((h.top fs f hf).1 hm).2
      subst h1
      have hx : (LogMgr.syncFile 0 l.maxNum f).2 = NIL := by
        rcases flushMemTable_out f with h1 | h1
        · exact h1
        · exact h1.trans hm
      rw [if_neg (by simp [hx])]
      have hmn : l.minNum = f.num := by unfold LogMgr.minNum; rw [hf]; rfl
      simp only [List.map_nil, List.foldl_nil]
      omega
    · rcases s.wr f hff hlast with him | hsf
      · rw [syncFile_out (s.ok f hff) him hm, if_pos hm,
          (syncFile_rel (h.wf f hff) _).1.num, hlast]
      · have hord := h.order
        rw [hf] at hord
        have hfs : ∀ g ∈ fs, g.num < l.maxNum := fun g hg => by
          rw [← hlast]; exact ((List.pairwise_append.1 hord).2.2 g hg f (by simp)).num
        have e4 : fs.map (fun f => if l.syncFrom ≤ f.num ∧ f.num ≤ l.maxNum then LogMgr.syncFile l.barrier l.maxNum f else (f, NIL)) = fs.map (fun f => (f, NIL)) := by
          apply List.map_congr_left
          intro g hg
          have := hfs g hg
          rw [if_neg (by omega)]
        have e5 : ∀ (gs : List (LogFile K)) (a : Nat), (gs.map (fun f => (f, NIL))).foldl
            (fun acc (fr : LogFile K × Nat) => if fr.2 ≠ NIL then fr.1.num else acc) a = a := by
          intro gs
          induction gs with
          | nil => intro a; rfl
          | cons g gs ih => intro a; simp only [List.map_cons, List.foldl_cons]; rw [if_neg (by simp)]; exact ih a
        rw [e4, e5]
        split
        · rw [(syncFile_rel (h.wf f hff) _).1.num, hlast]
        · exact hsf
  rw [e2]

theorem LogInv.syncOne_rel {l : LogMgr K} {A B} (h : LogInv l A B) {f} (hf : f ∈ l.files) :
    SyncRel f (l.syncOne f) := by
  unfold LogMgr.syncOne
  rw [h.bar]
  split
  · exact (syncFile_rel (h.wf f hf) _).1
  · exact SyncRel.rfl' f

/-- One file after a sync. -/
theorem SInv.syncOne {l : LogMgr K} {A B} (s : SInv l) (h : LogInv l A B) {f} (hf : f ∈ l.files) :
    StoreOk (l.syncOne f) ∧ f.disk <+: (l.syncOne f).disk ∧ (l.syncOne f).stored = f.pending ∧
    (f.mem.maxSeqNum ≠ NIL → (l.syncOne f).mem.syncedSeqNum = f.mem.maxSeqNum) ∧
    (f.num ≠ l.minNum → f.mem.maxSeqNum ≠ NIL → (l.syncOne f).disk ≠ []) ∧
    (f.num = l.maxNum → (l.syncOne f).immutable = f.immutable) := by
  have hr := h.num_range hf
  have hsr := h.syncFrom_range
  unfold LogMgr.syncOne
  rw [h.bar]
  by_cases hc : l.syncFrom ≤ f.num
  · rw [if_pos ⟨hc, hr.2⟩]
    obtain ⟨h1, h2, h3, h4⟩ := (s.ok f hf).sync (h.wf f hf) l.maxNum
    obtain ⟨-, r2, r3⟩ := syncFile_rel (h.wf f hf) l.maxNum
    refine ⟨h1, h2, h3, r2, ?_, fun e => r3 (by omega)⟩
    intro hmn hm hd
    obtain ⟨h5, h6⟩ := h4 hd hm
    exact s.disk f hf hmn h6 h5
  · rw [if_neg (by omega)]
    have hlt : f.num < l.syncFrom := by omega
    refine ⟨s.ok f hf, List.prefix_rfl, s.stored_lo h hf hlt, fun _ => s.lo f hf hlt, ?_, fun _ => rfl⟩
    intro hmn hm
    exact s.disk f hf hmn (by rw [s.lo f hf hlt]; exact hm)

theorem SInv.sync {l : LogMgr K} {A B} (s : SInv l) (h : LogInv l A B) :
    SInv { l with files := l.files.map l.syncOne, lastSynced := l.maxNum } := by
  have hN := h.numN
  have hsf : ({ l with files := l.files.map l.syncOne, lastSynced := l.maxNum } : LogMgr K).syncFrom = l.maxNum := by
    unfold LogMgr.syncFrom; rw [if_pos (Nat.ne_of_lt hN)]
  have hmin : ({ l with files := l.files.map l.syncOne, lastSynced := l.maxNum } : LogMgr K).minNum = l.minNum := by
    unfold LogMgr.minNum
    cases hf : l.files with
    | nil => rfl
    | cons f fs => simp only [List.map_cons]; exact (h.syncOne_rel (by rw [hf]; simp)).num
  refine ⟨?_, ?_, ?_, ?_, ?_⟩ <;> intro x hx <;> obtain ⟨f, hf, rfl⟩ := List.mem_map.1 hx <;>
    have hrel := h.syncOne_rel hf <;> obtain ⟨s1, s2, s3, s4, s5, s6⟩ := s.syncOne h hf <;>
    have hr := h.num_range hf
  · exact s1
  · rw [hsf, hrel.num, hrel.max]; intro hlt; exact s4 (h.ne_last hf hlt)
  · rw [hsf, hrel.num]; intro hlt; omega
  · rw [hmin, hrel.num]
    intro hmn hsy
    refine s5 hmn ?_
    intro hm
    rcases hrel.synced with h1 | h1
    · rw [h1] at hsy
      rcases (h.wf f hf).synced with h2 | h2
      · exact hsy h2
      · omega
    · exact h1.1 hm
  · intro _; exact Or.inr hsf

/-! ### checkpoint -/

theorem SInv.mark {l : LogMgr K} {A B} (s : SInv l) (h : LogInv l A B) : SInv l.checkpoint.1 ∧
    ∃ φ : LogFile K → LogFile K, l.checkpoint.1 = { l with files := l.files.map φ } ∧
      ∀ f ∈ l.files, (φ f).num = f.num ∧ (φ f).disk = f.disk ∧ (φ f).mem.flushedSeqNum = f.mem.flushedSeqNum := by
  obtain ⟨fs, f, hf⟩ := h.split_last
  have hff : f ∈ l.files := by rw [hf]; simp
  have hfi : l.file? l.maxNum = some f := by
    rw [← h.last_num hf]; exact h.file?_mem hff
  unfold LogMgr.checkpoint
  simp only [hfi]
  have hmem : ∀ x ∈ l.files, x.num = f.num → x = f := by
    intro x hx e
    have h1 := h.file?_mem hx
    have h2 := h.file?_mem hff
    rw [e] at h1
    exact Option.some.inj (h1.symm.trans h2)
  have key : ∀ f' : LogFile K, f' = { f with mem := f.mem.checkpoint.1, coldChk := f.coldChk || f.immutable } →
      f'.num = f.num ∧ f'.disk = f.disk ∧ f'.torn = f.torn ∧ f'.integrity = f.integrity ∧ f'.immutable = f.immutable ∧
      f'.mem.bySeq = f.mem.bySeq ∧ f'.mem.syncedSeqNum = f.mem.syncedSeqNum ∧
      f'.mem.flushedSeqNum = f.mem.flushedSeqNum ∧ f'.mem.minSeqNum = f.mem.minSeqNum ∧
      f'.mem.maxSeqNum = f.mem.maxSeqNum := by
    intro f' e; subst e
    unfold MemTable.checkpoint
    split
    · exact ⟨rfl, rfl, rfl, rfl, rfl, rfl, rfl, rfl, rfl, rfl⟩
    · split <;> exact ⟨rfl, rfl, rfl, rfl, rfl, rfl, rfl, rfl, rfl, rfl⟩
  generalize hf' : ({ f with mem := f.mem.checkpoint.1, coldChk := f.coldChk || f.immutable } : LogFile K) = f' at key
  obtain ⟨k1, k2, k3, k4, k5, k6, k7, k8, k9, k10⟩ := key f' rfl
  have hst := h.setFile_last (f' := f') hf k1
  refine ⟨?_, ⟨fun g => if g.num == f'.num then f' else g, rfl, ?_⟩⟩
  · rw [hst]
    have hmin := minNum_snoc' (l := l) (l' := { l with files := fs ++ [f'] }) (f' := f') (N := []) hf (by simp) k1
    have hsf := syncFrom_congr (l := l) (l' := { l with files := fs ++ [f'] }) rfl hmin
    have cases' : ∀ x ∈ fs ++ [f'], (x ∈ l.files) ∨ x = f' := by
      intro x hx
      rcases List.mem_append.1 hx with hx | hx
      · left; rw [hf]; simp [hx]
      · right; simpa using hx
    refine ⟨?_, ?_, ?_, ?_, ?_⟩ <;> intro x hx <;> rcases cases' x hx with hx | hx
    · exact s.ok x hx
    · subst hx; exact (s.ok f hff).congr k2 k3 k4 k6 k7 k8 k9 k10
    · rw [hsf]; exact s.lo x hx
    · rw [hsf]; subst hx; rw [k1, k7, k10]; exact s.lo f hff
    · rw [hsf]; exact s.hi x hx
    · rw [hsf]; subst hx; rw [k1, k7]; exact s.hi f hff
    · rw [hmin]; exact s.disk x hx
    · rw [hmin]; subst hx; rw [k1, k7, k2]; exact s.disk f hff
    · rw [hsf]; exact s.wr x hx
    · rw [hsf]; subst hx; rw [k1, k5]; exact s.wr f hff
  · intro x hx
    simp only []
    split
    · next e =>
      have : x = f := hmem x hx (by rw [← k1]; simpa using e)
      rw [this]; exact ⟨k1, k2, k8⟩
    · exact ⟨rfl, rfl, rfl⟩

/-! ### flush -/

/-- The number up to which a flush takes records: one that is synced, or everything. -/
def LogFile.SafeTo (g : LogFile K) (beyond : Bool) (s : Nat) : Prop :=
  (beyond = false ∧ g.mem.syncedSeqNum ≠ NIL ∧ s ≤ g.mem.syncedSeqNum) ∨
  (beyond = true ∧ g.mem.maxSeqNum ≠ NIL ∧ s = g.mem.maxSeqNum)

theorem SInv.flush {l : LogMgr K} {A B} (s : SInv l) (h : LogInv l A B) {P Q : List (LogFile K)} {g : LogFile K}
    (hf : l.files = P ++ g :: Q) {o : LogMgr.FlushOpts} {n : Nat} (hsafe : g.SafeTo o.beyondLastSync n)
    (hrel : FlushRel n o.beyondLastSync g ((if o.beyondLastSync = true then g.setSyncedSeqNum n else g).setFlushedSeqNum n))
    (hsync : o.beyondLastSync = true ∨ (l.lastSynced ≠ NIL ∧ g.num ≤ l.lastSynced)) :
    SInv (l.flushed o n g Q) := by
  have hg : g ∈ l.files := by rw [hf]; simp
  have hQ : ∀ q ∈ Q, q ∈ l.files := fun q hq => by rw [hf]; simp [hq]
  have hQn : ∀ q ∈ Q, g.num < q.num := by
    have ho := h.order
    rw [hf] at ho
    exact fun q hq => ((List.pairwise_cons.1 (List.pairwise_append.1 ho).2.1).1 q hq).num
  have hw := h.wf g hg
  have hgr := h.num_range hg
  have hsr := h.syncFrom_range
  have hN := h.numN
  obtain ⟨d1, d2, d3, d4⟩ := flushUpd_same g n o.beyondLastSync
  have hst : StoreOk ((if o.beyondLastSync = true then g.setSyncedSeqNum n else g).setFlushedSeqNum n) := by
    rcases hsafe with ⟨hb, h1, h2⟩ | ⟨hb, h1, h2⟩
    · rw [hb] at hrel ⊢
      simp only [Bool.false_eq_true, if_false] at hrel ⊢
      exact (s.ok g hg).flush hrel
    · rw [hb] at hrel ⊢
      simp only [if_true] at hrel ⊢
      rw [h2]
      exact ((s.ok g hg).flushAll hw h1).1
  have hsy : o.beyondLastSync = true →
      ((if o.beyondLastSync = true then g.setSyncedSeqNum n else g).setFlushedSeqNum n).mem.syncedSeqNum = g.mem.maxSeqNum := by
    intro hb
    rcases hsafe with ⟨hb', -⟩ | ⟨-, h1, h2⟩
    · rw [hb] at hb'; cases hb'
    · rw [hb]; simp only [if_true]; rw [h2]
      exact ((s.ok g hg).flushAll hw h1).2.2
  unfold LogMgr.flushed
  generalize ((if o.beyondLastSync = true then g.setSyncedSeqNum n else g).setFlushedSeqNum n) = g' at hrel hst hsy d1 d2 d3 d4
  have hmin : ∀ a b, ({ l with files := g' :: Q, lastFlushed := a, lastSynced := b } : LogMgr K).minNum = g.num := by
    intro a b; exact hrel.num
  have hsf : ∀ l' : LogMgr K, l'.minNum = g.num →
      l'.lastSynced = (if o.beyondLastSync = true ∧ g.num > l.lastSynced then g.num else l.lastSynced) →
      g.num ≤ l'.syncFrom ∧ l.syncFrom ≤ l'.syncFrom ∧ (l'.syncFrom = g.num ∨ l'.syncFrom = l.syncFrom) := by
    intro l' e1 e2
    have hls := h.lastS
    have a1 : l.lastSynced = NIL → l.syncFrom = l.minNum := fun e => by unfold LogMgr.syncFrom; rw [if_neg (by simp [e])]
    have a2 : l.lastSynced ≠ NIL → l.syncFrom = l.lastSynced := fun e => by unfold LogMgr.syncFrom; rw [if_pos e]
    have b1 : l'.lastSynced = NIL → l'.syncFrom = l'.minNum := fun e => by unfold LogMgr.syncFrom; rw [if_neg (by simp [e])]
    have b2 : l'.lastSynced ≠ NIL → l'.syncFrom = l'.lastSynced := fun e => by unfold LogMgr.syncFrom; rw [if_pos e]
    by_cases hN' : l.lastSynced = NIL
    · rw [if_neg (by omega : ¬ (o.beyondLastSync = true ∧ g.num > l.lastSynced))] at e2
      rw [b1 (e2.trans hN'), a1 hN', e1]
      omega
    · rw [a2 hN']
      by_cases hc : o.beyondLastSync = true ∧ g.num > l.lastSynced
      · rw [if_pos hc] at e2
        rw [b2 (by omega), e2]
        omega
      · rw [if_neg hc] at e2
        rw [b2 (by omega), e2]
        have : g.num ≤ l.lastSynced := by
          rcases hsync with hb | hb
          · by_contra hx; exact hc ⟨hb, by omega⟩
          · exact hb.2
        omega
  generalize hl' : ({ l with
    files := g' :: Q
    lastFlushed := g.num
    lastSynced := if o.beyondLastSync = true ∧ g.num > l.lastSynced then g.num else l.lastSynced } : LogMgr K) = l'
  have hfl : l'.files = g' :: Q := by rw [← hl']
  have hmx : l'.maxNum = l.maxNum := by rw [← hl']
  have hmin' : l'.minNum = g.num := by rw [← hl']; exact hmin _ _
  obtain ⟨hsf1, hsf2, hsf3⟩ := hsf l' hmin' (by rw [← hl'])
  refine ⟨?_, ?_, ?_, ?_, ?_⟩ <;> intro x hx <;> rw [hfl] at hx <;> rcases List.mem_cons.1 hx with hx | hx
  · subst hx; exact hst
  · exact s.ok x (hQ x hx)
  · subst hx; rw [hrel.num, hrel.max]
    intro hlt
    cases hb : o.beyondLastSync with
    | true => exact hsy hb
    | false =>
      rw [hrel.sync hb]
      refine s.lo g hg ?_
      rcases hsf3 with h1 | h1
      · omega
      · omega
  · intro hlt
    have := hQn x hx
    refine s.lo x (hQ x hx) ?_
    rcases hsf3 with h1 | h1
    · omega
    · omega
  · subst hx; rw [hrel.num]; intro hlt; omega
  · intro hlt; exact s.hi x (hQ x hx) (by omega)
  · subst hx; rw [hmin', hrel.num]; intro hne; exact absurd rfl hne
  · intro _
    have := hQn x hx
    exact s.disk x (hQ x hx) (by omega)
  · subst hx; rw [hrel.num, d4, hmx]
    intro e
    rcases s.wr g hg e with h1 | h1
    · exact Or.inl h1
    · right; omega
  · rw [hmx]
    intro e
    rcases s.wr x (hQ x hx) e with h1 | h1
    · exact Or.inl h1
    · right; omega

/-- A flush hands over exactly the records that leave the log section. -/
theorem LogInv.gather_exact {l : LogMgr K} {A B} (h : LogInv l A B) {P Q : List (LogFile K)} {g g' : LogFile K}
    (hf : l.files = P ++ g :: Q) {b : Bool} {n : Nat} (hsafe : g.SafeTo b n)
    (hrel : FlushRel n b g g') (hcov : ∀ f ∈ P, f.mem.maxSeqNum ≤ n)
    (hsync : b = true ∨ (l.lastSynced ≠ NIL ∧ g.num ≤ l.lastSynced)) :
    LogMgr.gather n b (P ++ [g]) = P.flatMap LogFile.pending ++ g.moved g' := by
  have ho := h.order
  rw [hf] at ho
  have ho1 := List.pairwise_append.1 ho
  have hg : g ∈ l.files := by rw [hf]; simp
  have hP : ∀ f ∈ P, f ∈ l.files := fun f hfP => by rw [hf]; simp [hfP]
  have hw := h.wf g hg
  have hwPg : ∀ f ∈ P ++ [g], f.mem.WF := fun f hf' => by
    simp only [List.mem_append, List.mem_singleton] at hf'
    rcases hf' with h1 | h1
    · exact h.wf f (hP f h1)
    · rw [h1]; exact hw
  rw [gather_eq (P ++ [g]) hwPg (List.Pairwise.sublist (List.Sublist.append_left (by simp) P) ho),
    List.flatMap_append]
  congr 1
  · apply flatMap_congr_mem
    intro f hfP
    have hbef := ho1.2.2 f hfP g (by simp)
    unfold LogFile.contrib
    rw [if_neg]
    · rw [List.filter_eq_self]
      intro r hr
      have := ((h.wf f (hP f hfP)).bound r (pending_sub hr)).2.1
      have := hcov f hfP
      simp; omega
    · rintro ⟨hb, hsy⟩
      rcases hsync with h1 | h1
      · rw [hb] at h1; cases h1
      · exact h.syncedLe h1.1 f (hP f hfP) (Or.inl (by have := hbef.num; omega)) hbef.ne hsy
  · simp only [List.flatMap_cons, List.flatMap_nil, List.append_nil]
    unfold LogFile.contrib LogFile.moved
    have hmark : g'.mem.flushedSeqNum = n ∧ n ≠ NIL := by
      rcases hsafe with ⟨hb, h1, h2⟩ | ⟨hb, h1, h2⟩
      · have := hrel.val hb h1
        rcases hw.synced with h3 | h3
        · exact absurd h3 h1
        · have h4 : Nat.min n g.mem.syncedSeqNum = n := Nat.min_eq_left h2
          exact ⟨this.trans h4, by omega⟩
      · have := hrel.valB hb h1
        have h4 : Nat.min n g.mem.maxSeqNum = n := Nat.min_eq_left (by omega)
        exact ⟨this.trans h4, by omega⟩
    rw [if_neg, hmark.1, valid_iff.2 hmark.2]
    · simp
    · rintro ⟨hb, hsy⟩
      rcases hsafe with ⟨-, h1, -⟩ | ⟨hb', -⟩
      · exact h1 hsy
      · rw [hb] at hb'; cases hb'

end Jungle
