/-
  What the log files hold on disk, compared with what they hold in memory.
-/
import Verif.Log.CrashLemmas
import Verif.Log.FlushLemmas2

namespace Jungle
open Spec
set_option linter.unusedSectionVars false

variable {K : Type} [LinearOrder K]

/-- The records of a file that are on disk and above the flush mark. -/
def LogFile.stored (f : LogFile K) : List (Rec K) := above f.mem.flushedSeqNum (dataOf f.disk)

/-- The file on disk agrees with the file in memory up to the sync mark. -/
structure StoreOk (f : LogFile K) : Prop where
  inc : Increasing (dataOf f.disk)
  sub : ∀ r ∈ dataOf f.disk, r ∈ f.mem.bySeq
  le : f.mem.syncedSeqNum ≠ NIL → ∀ r ∈ dataOf f.disk, r.seq ≤ f.mem.syncedSeqNum
  nil : f.mem.syncedSeqNum = NIL → dataOf f.disk = []
  eq : f.mem.syncedSeqNum ≠ NIL →
    f.stored = f.pending.filter (fun r => decide (r.seq ≤ f.mem.syncedSeqNum))
  torn : f.torn = false
  integ : f.integrity ≠ .corrupted
  min : f.mem.maxSeqNum ≠ NIL → f.mem.minSeqNum ≠ NIL

theorem StoreOk.create (n a b : Nat) : StoreOk (LogFile.create n a b : LogFile K) :=
  ⟨List.Pairwise.nil, by simp [LogFile.create, dataOf], by simp [LogFile.create, dataOf], fun _ => rfl,
    fun h => absurd rfl h, rfl, by simp [LogFile.create], fun h => absurd rfl h⟩

theorem StoreOk.put {f : LogFile K} {m' : MemTable K} {r : Rec K} {s : Nat} (h : StoreOk f) (w : f.mem.WF)
    (hp : MemTable.PutOk f.mem m' r s) (hN : s < NIL)
    (hgt : f.mem.maxSeqNum = NIL ∨ f.mem.maxSeqNum < s) :
    StoreOk { f with mem := m' } := by
  refine ⟨h.inc, ?_, ?_, ?_, ?_, h.torn, h.integ, ?_⟩
  · intro x hx; simp only [hp.bySeq]; exact List.mem_append_left _ (h.sub x hx)
  · simp only [hp.synced]; exact h.le
  · simp only [hp.synced]; exact h.nil
  · simp only [hp.synced]
    intro hs
    have hpp := pending_put (f' := { f with mem := m' }) w hp hgt
    rw [hpp, List.filter_append]
    have : ([MemTable.accepted r s].filter (fun r => decide (r.seq ≤ f.mem.syncedSeqNum))) = [] := by
      rw [List.filter_eq_nil_iff]
      intro x hx
      simp only [List.mem_singleton] at hx; subst hx
      have : (MemTable.accepted r s).seq = s := rfl
      rw [this]
      rcases w.synced with h1 | h1
      · exact absurd h1 hs
      · simp; omega
    rw [this, List.append_nil, ← h.eq hs]
    unfold LogFile.stored
    simp only [hp.flushed]
  · simp only [hp.min]
    intro _
    split
    · omega
    · next hm => exact h.min hm

/-- Changes that do not touch the records, the marks or the file. -/
theorem StoreOk.congr {f f' : LogFile K} (h : StoreOk f) (hd : f'.disk = f.disk) (ht : f'.torn = f.torn)
    (hi : f'.integrity = f.integrity) (hb : f'.mem.bySeq = f.mem.bySeq)
    (hs : f'.mem.syncedSeqNum = f.mem.syncedSeqNum) (hf : f'.mem.flushedSeqNum = f.mem.flushedSeqNum)
    (hmi : f'.mem.minSeqNum = f.mem.minSeqNum) (hma : f'.mem.maxSeqNum = f.mem.maxSeqNum) : StoreOk f' := by
  have hp : f'.pending = f.pending := by unfold LogFile.pending; rw [hb, hf]
  have hst : f'.stored = f.stored := by unfold LogFile.stored; rw [hd, hf]
  exact ⟨by rw [hd]; exact h.inc, by rw [hd, hb]; exact h.sub, by rw [hd, hs]; exact h.le,
    by rw [hd, hs]; exact h.nil, by rw [hs, hst, hp]; exact h.eq, by rw [ht]; exact h.torn,
    by rw [hi]; exact h.integ, by rw [hmi, hma]; exact h.min⟩

theorem stored_sub_pending {f : LogFile K} (h : StoreOk f) {r : Rec K} (hr : r ∈ f.stored) : r ∈ f.pending := by
  unfold LogFile.stored above at hr
  unfold LogFile.pending
  obtain ⟨h1, h2⟩ := List.mem_filter.1 hr
  exact List.mem_filter.2 ⟨h.sub r h1, h2⟩

theorem stored_nil {f : LogFile K} (h : dataOf f.disk = []) : f.stored = [] := by
  unfold LogFile.stored above; rw [h]; rfl

/-- A file that is synced up to its maximum has everything on disk. -/
theorem stored_full {f : LogFile K} (h : StoreOk f) (w : f.mem.WF) (hm : f.mem.maxSeqNum ≠ NIL)
    (hs : f.mem.syncedSeqNum = f.mem.maxSeqNum) : f.stored = f.pending := by
  rw [h.eq (by rw [hs]; exact hm), List.filter_eq_self]
  intro r hr
  have := (w.bound r (pending_sub hr)).2.1
  simpa [hs] using this

theorem stored_prefix {f : LogFile K} (h : StoreOk f) (w : f.mem.WF) : f.stored <+: f.pending := by
  by_cases hs : f.mem.syncedSeqNum = NIL
  · rw [stored_nil (h.nil hs)]; exact List.nil_prefix
  · rw [h.eq hs]
    have hi : Increasing f.pending := List.Pairwise.sublist List.filter_sublist w.sorted
    conv => rhs; rw [split_le hi f.mem.syncedSeqNum]
    exact List.prefix_append _ _

/-! ### what a sync writes -/

theorem dataOf_recs (cps : Rec K → List Nat) (L : List (Rec K)) :
    dataOf (L.flatMap (fun r => DItem.data r :: (cps r).map DItem.checkpoint)) = L := by
  induction L with
  | nil => rfl
  | cons r L ih =>
    rw [List.flatMap_cons, dataOf_append, ih]
    have : ∀ cs : List Nat, dataOf (cs.map (DItem.checkpoint (K := K))) = [] := by
      intro cs; induction cs with
      | nil => rfl
      | cons c cs ih => simpa [dataOf] using ih
    simp [dataOf, this]

/-- The records a sync appends. -/
theorem dataOf_flushItems {m : MemTable K} (w : m.WF) :
    dataOf (LogFile.flushItems m NIL) = m.bySeq.filter
      (fun r => decide ((if m.syncedSeqNum ≠ NIL then m.syncedSeqNum + 1 else m.minSeqNum) ≤ r.seq)) := by
  unfold LogFile.flushItems
  simp only []
  have hv : valid NIL = false := by decide
  rw [dataOf_append, dataOf_recs (fun r => m.checkpoints.filter (fun c => c == r.seq)),
    dropWhile_eq_filter w.sorted]
  have honly : ∀ c : Prop, [Decidable c] → dataOf (if c then [DItem.checkpoint (K := K) m.syncedSeqNum] else []) = [] := by
    intro c _; split <;> rfl
  rw [honly, List.nil_append, takeWhile_eq_filter (List.Pairwise.sublist List.filter_sublist w.sorted),
    List.filter_eq_self]
  intro r hr
  have := (w.bound r (List.mem_filter.1 hr).1).2.1
  simp [hv, this]

/-- How `flushMemTable` changes the file. -/
theorem flushMemTable_disk {f : LogFile K} (ht : f.torn = false) (hi : f.integrity ≠ .corrupted) :
    let f1 := (f.flushMemTable NIL).1
    f1.torn = false ∧ f1.integrity ≠ .corrupted ∧
    ((f1.disk = f.disk ∧ f.isSynced = true ∧ f.immutable = true) ∨
     (f.mem.minSeqNum = NIL ∧ f1.disk = f.disk ++ [.flushMarker f.mem.syncedSeqNum]) ∨
     (f.mem.minSeqNum ≠ NIL ∧ f1.disk = f.disk ++ LogFile.flushItems f.mem NIL ++ [.flushMarker f.mem.syncedSeqNum] ∧
       (f.flushMemTable NIL).2 = f.mem.maxSeqNum)) := by
  unfold LogFile.flushMemTable
  simp only []
  by_cases h1 : f.immutable = true ∧ f.fOpen = false ∧ f.isSynced = true
  · rw [if_pos h1]; exact ⟨ht, hi, Or.inl ⟨rfl, h1.2.2, h1.1⟩⟩
  · rw [if_neg h1]
    have hmc : ∀ g : LogFile K, g.torn = false → g.integrity ≠ .corrupted →
        g.maybeClose.torn = false ∧ g.maybeClose.integrity ≠ .corrupted ∧ g.maybeClose.disk = g.disk := by
      intro g h1 h2; unfold LogFile.maybeClose; split
      · exact ⟨h1, by simp, rfl⟩
      · exact ⟨h1, h2, rfl⟩
    have hlast : ∀ n : Nat, (if valid NIL = true ∧ NIL < n then NIL else n) = n := by
      intro n; rw [if_neg (by simp [valid])]
    have hmem : ∀ g : LogFile K, (if g.integrity = .unknown then
          ({ g with integrity := if g.torn = true then .corrupted else .valid } : LogFile K) else g).mem = g.mem := by
      intro g; split <;> rfl
    have hdisk : ∀ g : LogFile K, (if g.integrity = .unknown then
          ({ g with integrity := if g.torn = true then .corrupted else .valid } : LogFile K) else g).disk = g.disk := by
      intro g; split <;> rfl
    have htorn : ∀ g : LogFile K, (if g.integrity = .unknown then
          ({ g with integrity := if g.torn = true then .corrupted else .valid } : LogFile K) else g).torn = g.torn := by
      intro g; split <;> rfl
    have hint : ∀ g : LogFile K, g.torn = false → g.integrity ≠ .corrupted → (if g.integrity = .unknown then
          ({ g with integrity := if g.torn = true then .corrupted else .valid } : LogFile K) else g).integrity ≠ .corrupted := by
      intro g h1 h2; split
      · simp [h1]
      · exact h2
    have hf1 : ∀ g : LogFile K, (if f.fOpen = true then f else { f with fOpen := true, integrity := .unknown }) = g →
        g.torn = false ∧ g.integrity ≠ .corrupted ∧ g.mem = f.mem ∧ g.disk = f.disk := by
      intro g hg; subst hg; split
      · exact ⟨ht, hi, rfl, rfl⟩
      · exact ⟨ht, by simp, rfl, rfl⟩
    generalize (if f.fOpen = true then f else { f with fOpen := true, integrity := .unknown }) = g at hf1
    obtain ⟨g1, g2, g3, g4⟩ := hf1 g rfl
    have e1 := hmem g
    have e2 := hdisk g
    have e3 := htorn g
    have e4 := hint g g1 g2
    generalize (if g.integrity = .unknown then
          ({ g with integrity := if g.torn = true then .corrupted else .valid } : LogFile K) else g) = g' at e1 e2 e3 e4
    rw [if_neg e4]
    rw [g3] at e1
    rw [g4] at e2
    rw [g1] at e3
    by_cases h2 : g'.mem.minSeqNum = NIL
    · rw [if_pos h2]
      obtain ⟨c1, c2, c3⟩ := hmc { g' with disk := g'.disk ++ [.flushMarker g'.mem.syncedSeqNum] } e3 e4
      refine ⟨c1, c2, Or.inr (Or.inl ⟨by rw [← e1]; exact h2, ?_⟩)⟩
      rw [c3]; simp only [e1, e2]
    · rw [if_neg h2]
      obtain ⟨c1, c2, c3⟩ := hmc { g' with
          disk := g'.disk ++ LogFile.flushItems g'.mem NIL ++ [.flushMarker g'.mem.syncedSeqNum]
          mem := { g'.mem with checkpointsDirty := false } } e3 e4
      refine ⟨c1, c2, Or.inr (Or.inr ⟨by rw [← e1]; exact h2, ?_, ?_⟩)⟩
      · rw [c3]; simp only [e1, e2]
      · simp only [hlast, e1]

theorem isSynced_marks {f : LogFile K} (w : f.mem.WF) (h : f.isSynced = true) (hm : f.mem.maxSeqNum ≠ NIL) :
    f.mem.syncedSeqNum = f.mem.maxSeqNum := by
  unfold LogFile.isSynced at h
  split at h
  · cases h
  · rw [Bool.not_eq_true', Bool.and_eq_false_iff] at h
    have hv := valid_iff.2 hm
    rcases h with h | h
    · rw [hv] at h; cases h
    · simp only [Bool.or_eq_false_iff, Bool.not_eq_false', decide_eq_false_iff_not] at h
      have h1 := valid_iff.1 h.1
      rcases w.synced with h2 | h2
      · exact absurd h2 h1
      · omega

/-- One file of a sync. -/
theorem StoreOk.sync {f : LogFile K} (h : StoreOk f) (w : f.mem.WF) (lnTo : Nat) :
    let f' := (LogMgr.syncFile 0 lnTo f).1
    StoreOk f' ∧ f.disk <+: f'.disk ∧ f'.stored = f.pending ∧
    (f'.disk = [] → f.mem.maxSeqNum ≠ NIL → f.disk = [] ∧ f.mem.syncedSeqNum ≠ NIL) := by
  intro f'
  have hrel := syncFile_rel w lnTo
  have hd := flushMemTable_disk h.torn h.integ
  simp only [] at hd
  have hmc : ∀ g : LogFile K, g.integrity ≠ .corrupted →
      g.maybeClose.torn = g.torn ∧ g.maybeClose.integrity ≠ .corrupted ∧ g.maybeClose.disk = g.disk := by
    intro g h2; unfold LogFile.maybeClose; split
    · exact ⟨rfl, by simp, rfl⟩
    · exact ⟨rfl, h2, rfl⟩
  have hss : ∀ (g : LogFile K) (n : Nat), (g.setSyncedSeqNum n).torn = g.torn ∧
      (g.setSyncedSeqNum n).integrity = g.integrity ∧ (g.setSyncedSeqNum n).disk = g.disk := by
    intro g n; rw [setSynced_eq]; split <;> exact ⟨rfl, rfl, rfl⟩
  have hsame : f'.torn = false ∧ f'.integrity ≠ .corrupted ∧ f'.disk = (f.flushMemTable NIL).1.disk := by
    show (LogMgr.syncFile 0 lnTo f).1.torn = false ∧ (LogMgr.syncFile 0 lnTo f).1.integrity ≠ .corrupted ∧ (LogMgr.syncFile 0 lnTo f).1.disk = _
    unfold LogMgr.syncFile
    simp only [ne_eq, not_true, if_false]
    obtain ⟨a1, a2, a3⟩ := hmc (f.flushMemTable NIL).1 hd.2.1
    obtain ⟨b1, b2, b3⟩ := hss (f.flushMemTable NIL).1.maybeClose (f.flushMemTable NIL).2
    have c1 := b1.trans (a1.trans hd.1)
    have c3 := b3.trans a3
    rw [← b2] at a2
    generalize ((f.flushMemTable NIL).1.maybeClose).setSyncedSeqNum (f.flushMemTable NIL).2 = g at a2 c1 c3
    split <;> exact ⟨c1, a2, c3⟩
  obtain ⟨s1, s2, s3⟩ := hsame
  obtain ⟨r1, r2, -⟩ := hrel
  have hsub : ∀ L : List (Rec K), Increasing L → Increasing (above f.mem.flushedSeqNum L) := fun L hL =>
    List.Pairwise.sublist List.filter_sublist hL
  have hpi : Increasing f.pending := List.Pairwise.sublist List.filter_sublist w.sorted
  -- the data of the new file
  have key : ∃ new, f'.disk = f.disk ++ new ∧ dataOf f'.disk = dataOf f.disk ++ dataOf new ∧
      (new = [] → f.mem.maxSeqNum ≠ NIL → f.mem.syncedSeqNum ≠ NIL) ∧
      Increasing (dataOf f.disk ++ dataOf new) ∧ (∀ r ∈ dataOf new, r ∈ f.mem.bySeq) ∧
      f'.stored = f.pending ∧ (f.mem.maxSeqNum = NIL → dataOf new = []) := by
    by_cases hm : f.mem.maxSeqNum = NIL
    · have hb := w.nil hm
      have hdata : dataOf f.disk = [] := by
        cases hx : dataOf f.disk with
        | nil => rfl
        | cons a L => exact absurd (h.sub a (by rw [hx]; simp)) (by rw [hb.1]; simp)
      have hpend : f.pending = [] := by unfold LogFile.pending; rw [hb.1]; rfl
      have hgen : ∀ new, f'.disk = f.disk ++ new → dataOf new = [] → ∃ new, f'.disk = f.disk ++ new ∧ dataOf f'.disk = dataOf f.disk ++ dataOf new ∧
          (new = [] → f.mem.maxSeqNum ≠ NIL → f.mem.syncedSeqNum ≠ NIL) ∧
          Increasing (dataOf f.disk ++ dataOf new) ∧ (∀ r ∈ dataOf new, r ∈ f.mem.bySeq) ∧
          f'.stored = f.pending ∧ (f.mem.maxSeqNum = NIL → dataOf new = []) := by
        intro new e1 e2
        have e3 : dataOf f'.disk = dataOf f.disk ++ dataOf new := by rw [e1, dataOf_append]
        refine ⟨new, e1, e3, fun _ h => absurd hm h, by rw [hdata, e2]; exact List.Pairwise.nil, by rw [e2]; simp, ?_, fun _ => e2⟩
        rw [hpend]; apply stored_nil; rw [e3, e2, hdata]; rfl
      rcases hd.2.2 with ⟨h1, -⟩ | ⟨-, h1⟩ | ⟨h1, -⟩
      · exact hgen [] (by rw [s3, h1]; simp) rfl
      · exact hgen [.flushMarker f.mem.syncedSeqNum] (by rw [s3, h1]) rfl
      · exact absurd hb.2 h1
    · have hmin := h.min hm
      rcases hd.2.2 with ⟨h1, h2, -⟩ | ⟨h1, -⟩ | ⟨-, h1, -⟩
      · have hsy := isSynced_marks w h2 hm
        refine ⟨[], by rw [s3, h1]; simp, by rw [s3, h1]; simp [dataOf], fun _ _ => by rw [hsy]; exact hm,
          by simpa [dataOf] using h.inc, by simp [dataOf], ?_, fun _ => rfl⟩
        rw [← stored_full h w hm hsy]
        unfold LogFile.stored; rw [s3, h1, r1.flushed]
      · exact absurd h1 hmin
      · have hdi := dataOf_flushItems w
        have hnew : dataOf (LogFile.flushItems f.mem NIL ++ [.flushMarker f.mem.syncedSeqNum]) = dataOf (LogFile.flushItems f.mem NIL) := by
          rw [dataOf_append]; simp [dataOf]
        refine ⟨LogFile.flushItems f.mem NIL ++ [.flushMarker f.mem.syncedSeqNum],
          by rw [s3, h1, List.append_assoc], by rw [s3, h1, List.append_assoc, dataOf_append],
          fun hx => by simp at hx, ?_, ?_, ?_, fun hx => absurd hx hm⟩
        · rw [hnew, hdi]
          refine List.pairwise_append.2 ⟨h.inc, List.Pairwise.sublist List.filter_sublist w.sorted, ?_⟩
          intro a ha b hb
          by_cases hs : f.mem.syncedSeqNum = NIL
          · rw [h.nil hs] at ha; cases ha
          · have h3 := h.le hs a ha
            have h4 := (List.mem_filter.1 hb).2
            simp only [ne_eq, hs, not_false_eq_true, if_true, decide_eq_true_eq] at h4
            omega
        · intro r hr; rw [hnew, hdi] at hr; exact (List.mem_filter.1 hr).1
        · have hst : f'.stored = f.stored ++ above f.mem.flushedSeqNum (dataOf (LogFile.flushItems f.mem NIL)) := by
            unfold LogFile.stored above
            rw [s3, h1, List.append_assoc, dataOf_append, hnew, r1.flushed, List.filter_append]
          rw [hst, hdi]
          by_cases hs : f.mem.syncedSeqNum = NIL
          · rw [stored_nil (h.nil hs)]
            have : f.mem.bySeq.filter (fun r => decide ((if f.mem.syncedSeqNum ≠ NIL then f.mem.syncedSeqNum + 1 else f.mem.minSeqNum) ≤ r.seq)) = f.mem.bySeq := by
              rw [List.filter_eq_self]
              intro r hr
              have := (w.bound r hr).1
              simp [hs, this]
            rw [this]; rfl
          · rw [h.eq hs]
            conv => rhs; rw [split_le hpi f.mem.syncedSeqNum]
            congr 1
            unfold above LogFile.pending
            rw [List.filter_filter, List.filter_filter]
            apply List.filter_congr
            intro r hr
            by_cases hle : r.seq ≤ f.mem.syncedSeqNum
            · have : ¬ f.mem.syncedSeqNum + 1 ≤ r.seq := by omega
              simp [hs, this, hle]
            · have : f.mem.syncedSeqNum + 1 ≤ r.seq := by omega
              simp [hs, this, hle]
  obtain ⟨new, k1, k2, k3, k4, k5, k6, k7⟩ := key
  refine ⟨⟨by rw [k2]; exact k4, ?_, ?_, ?_, ?_, s1, s2, by rw [r1.max, r1.min]; exact h.min⟩, ⟨new, k1.symm⟩, k6, ?_⟩
  · intro r hr
    rw [k2] at hr; rw [r1.bySeq]
    rcases List.mem_append.1 hr with hr | hr
    · exact h.sub r hr
    · exact k5 r hr
  · intro hs r hr
    have hrb : r ∈ f.mem.bySeq := by
      rw [k2] at hr
      rcases List.mem_append.1 hr with hr | hr
      · exact h.sub r hr
      · exact k5 r hr
    have hb := w.bound r hrb
    have hm : f.mem.maxSeqNum ≠ NIL := fun hm => by have := (w.nil hm).1; rw [this] at hrb; cases hrb
    rw [r2 hm]; exact hb.2.1
  · intro hs
    have hm : f.mem.maxSeqNum = NIL := by
      by_contra hm; exact hm ((r2 hm).symm.trans hs)
    have h2 : f.mem.syncedSeqNum = NIL := by
      rcases w.synced with h | h
      · exact h
      · omega
    rw [k2, k7 hm, h.nil h2]; rfl
  · intro hs
    have hm : f.mem.maxSeqNum ≠ NIL := by
      intro hm
      rcases r1.synced with h1 | h1
      · rw [h1] at hs
        rcases w.synced with h | h
        · exact hs h
        · omega
      · exact h1.1 hm
    rw [k6, r1.pending, r2 hm]
    symm; rw [List.filter_eq_self]
    intro r hr
    have := (w.bound r (pending_sub hr)).2.1
    simpa using this
  · intro hn hm
    rw [k1] at hn
    have h1 : f.disk = [] ∧ new = [] := by simpa using hn
    exact ⟨h1.1, k3 h1.2 hm⟩

/-! ### what a flush does to the last file -/

theorem pending_flushed {s b} {f f' : LogFile K} (h : FlushRel s b f f') :
    f'.pending = above f'.mem.flushedSeqNum f.pending := by
  unfold LogFile.pending above
  rw [h.bySeq, List.filter_filter]
  apply List.filter_congr
  intro r hr
  by_cases hf : f.mem.flushedSeqNum = NIL
  · simp [hf, valid]
  · have := h.mono hf
    have hv2 := valid_iff.2 this.1
    by_cases hle : r.seq ≤ f'.mem.flushedSeqNum
    · simp [hv2, hle]
    · have : ¬ r.seq ≤ f.mem.flushedSeqNum := by omega
      simp [hle, this]

theorem stored_flushed {s b} {f f' : LogFile K} (h : FlushRel s b f f') (hd : f'.disk = f.disk) :
    f'.stored = above f'.mem.flushedSeqNum f.stored := by
  unfold LogFile.stored above
  rw [hd, List.filter_filter]
  apply List.filter_congr
  intro r hr
  by_cases hf : f.mem.flushedSeqNum = NIL
  · simp [hf, valid]
  · have := h.mono hf
    have hv2 := valid_iff.2 this.1
    by_cases hle : r.seq ≤ f'.mem.flushedSeqNum
    · simp [hv2, hle]
    · have : ¬ r.seq ≤ f.mem.flushedSeqNum := by omega
      simp [hle, this]

theorem flushUpd_same (f : LogFile K) (s : Nat) (b : Bool) :
    let f' := (if b = true then f.setSyncedSeqNum s else f).setFlushedSeqNum s
    f'.disk = f.disk ∧ f'.torn = f.torn ∧ f'.integrity = f.integrity ∧ f'.immutable = f.immutable := by
  intro f'
  show ((if b = true then f.setSyncedSeqNum s else f).setFlushedSeqNum s).disk = _ ∧
    ((if b = true then f.setSyncedSeqNum s else f).setFlushedSeqNum s).torn = _ ∧
    ((if b = true then f.setSyncedSeqNum s else f).setFlushedSeqNum s).integrity = _ ∧
    ((if b = true then f.setSyncedSeqNum s else f).setFlushedSeqNum s).immutable = _
  rw [setFlushed_eq, setSynced_eq]
  repeat' split
  all_goals exact ⟨rfl, rfl, rfl, rfl⟩

/-- The last file of a flush that only takes synced records. -/
theorem StoreOk.flush {f : LogFile K} (h : StoreOk f) {s : Nat}
    (hrel : FlushRel s false f (f.setFlushedSeqNum s)) : StoreOk (f.setFlushedSeqNum s) := by
  obtain ⟨d1, d2, d3, -⟩ := flushUpd_same f s false
  simp only [Bool.false_eq_true, if_false] at d1 d2 d3
  have hs := hrel.sync rfl
  refine ⟨by rw [d1]; exact h.inc, by rw [d1, hrel.bySeq]; exact h.sub, by rw [d1, hs]; exact h.le,
    by rw [d1, hs]; exact h.nil, ?_, by rw [d2]; exact h.torn, by rw [d3]; exact h.integ,
    by rw [hrel.max, hrel.min]; exact h.min⟩
  rw [hs]
  intro hne
  rw [stored_flushed hrel d1, pending_flushed hrel, h.eq hne]
  unfold above
  rw [List.filter_filter, List.filter_filter]
  apply List.filter_congr
  intro r _
  exact Bool.and_comm _ _

/-- The last file of a flush of everything. -/
theorem StoreOk.flushAll {f : LogFile K} (h : StoreOk f) (w : f.mem.WF) (hm : f.mem.maxSeqNum ≠ NIL) :
    let f' := (f.setSyncedSeqNum f.mem.maxSeqNum).setFlushedSeqNum f.mem.maxSeqNum
    StoreOk f' ∧ f'.pending = [] ∧ f'.mem.syncedSeqNum = f.mem.maxSeqNum := by
  intro f'
  have e : f' = { f with mem := { f.mem with syncedSeqNum := f.mem.maxSeqNum, flushedSeqNum := f.mem.maxSeqNum } } := by
    show (f.setSyncedSeqNum f.mem.maxSeqNum).setFlushedSeqNum f.mem.maxSeqNum = _
    rw [setFlushed_eq, setSynced_eq, if_neg hm]
    simp only [Nat.min_self]
    rw [if_neg hm]
  have hv := valid_iff.2 hm
  have hp : f'.pending = [] := by
    rw [e]; unfold LogFile.pending
    rw [List.filter_eq_nil_iff]
    intro r hr
    have := (w.bound r hr).2.1
    simp [hv, this]
  refine ⟨?_, hp, by rw [e]⟩
  have hst : f'.stored = [] := by
    rw [e]; unfold LogFile.stored above
    rw [List.filter_eq_nil_iff]
    intro r hr
    have := (w.bound r (h.sub r hr)).2.1
    simp [hv, this]
  refine ⟨by rw [e]; exact h.inc, by rw [e]; exact h.sub, ?_, ?_, ?_, by rw [e]; exact h.torn,
    by rw [e]; exact h.integ, by rw [e]; exact h.min⟩
  · rw [e]; intro _ r hr; exact (w.bound r (h.sub r hr)).2.1
  · rw [e]; intro hx; exact absurd hx hm
  · intro _; rw [hst, hp]; rfl

end Jungle
