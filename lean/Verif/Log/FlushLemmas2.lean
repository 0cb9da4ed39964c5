/-
  The invariant of the log section: the whole of `LogMgr::flush`, and `getSN`.
-/
import Verif.Log.FlushLemmas

namespace Jungle
open Spec
set_option linter.unusedSectionVars false

variable {K : Type} [LinearOrder K]

/-! ### looking up a file by sequence number -/

/-- One step of the search in `bySeqEntry`. -/
def seqStep (seq : Nat) (best : Option (LogFile K)) (f : LogFile K) : Option (LogFile K) :=
  if f.startSeq ≤ seq then
    match best with
    | none => some f
    | some b => if b.startSeq ≤ f.startSeq then some f else some b
  else best

theorem bySeqEntry_fold (l : LogMgr K) (seq : Nat) : l.bySeqEntry seq = l.files.foldl (seqStep seq) none := rfl

theorem fold_mem (seq : Nat) (L : List (LogFile K)) (o : Option (LogFile K)) (b : LogFile K)
    (h : L.foldl (seqStep seq) o = some b) : b ∈ L ∨ o = some b := by
  induction L generalizing o with
  | nil => exact Or.inr h
  | cons f L ih =>
    rw [List.foldl_cons] at h
    rcases ih _ h with h | h
    · exact Or.inl (by simp [h])
    · unfold seqStep at h
      split at h
      · split at h
        · cases h; exact Or.inl (by simp)
        · split at h
          · cases h; exact Or.inl (by simp)
          · exact Or.inr h
      · exact Or.inr h

theorem fold_skip (seq : Nat) (L : List (LogFile K)) (o : Option (LogFile K))
    (h : ∀ q ∈ L, seq < q.startSeq) : L.foldl (seqStep seq) o = o := by
  induction L generalizing o with
  | nil => rfl
  | cons f L ih =>
    rw [List.foldl_cons]
    have := h f (by simp)
    have e : seqStep seq o f = o := by unfold seqStep; rw [if_neg (by omega)]
    rw [e]; exact ih o (fun q hq => h q (by simp [hq]))

theorem bySeqEntry_eq {l : LogMgr K} {P Q : List (LogFile K)} {f : LogFile K} {seq : Nat}
    (hf : l.files = P ++ f :: Q) (h1 : f.startSeq ≤ seq) (h2 : ∀ q ∈ Q, seq < q.startSeq)
    (h3 : ∀ p ∈ P, p.startSeq ≤ f.startSeq) : l.bySeqEntry seq = some f := by
  rw [bySeqEntry_fold, hf, List.foldl_append, List.foldl_cons]
  rw [fold_skip seq Q _ h2]
  unfold seqStep
  rw [if_pos h1]
  split
  · rfl
  · next b hb =>
    rcases fold_mem seq P none b hb with h | h
    · rw [if_pos (h3 b h)]
    · cases h

theorem LogInv.fileBySeq_rec {l : LogMgr K} {A B} (h : LogInv l A B) {f : LogFile K}
    (hf : f ∈ l.files) {r : Rec K} (hr : r ∈ f.mem.bySeq) (ex : Bool) : l.fileBySeq r.seq ex = some f := by
  obtain ⟨P, Q, e⟩ := List.append_of_mem hf
  have ho := h.order
  rw [e] at ho
  have ho1 := List.pairwise_append.1 ho
  have ho2 := List.pairwise_cons.1 ho1.2.1
  have hw := h.wf f hf
  have hb := hw.bound r hr
  have hm : f.mem.maxSeqNum ≠ NIL := fun hm => by rw [(hw.nil hm).1] at hr; cases hr
  unfold LogMgr.fileBySeq
  rw [bySeqEntry_eq e ((h.own f hf).recs r hr)
    (fun q hq => by have := (ho2.1 q hq).start hm; omega)
    (fun p hp => (ho1.2.2 p hp f (by simp)).startLe)]
  simp only []
  rw [if_neg (by omega), if_neg (by omega)]

theorem LogInv.fileBySeq_above {l : LogMgr K} {A B} (h : LogInv l A B) {seq : Nat} (h0 : 0 < seq)
    (hs : ∀ m, l.getMaxSeqNum = some m → m < seq) {f} (he : l.fileBySeq seq = some f) :
    f.num = l.minNum ∧ l.minNum = l.maxNum := by
  obtain ⟨fs, g, e⟩ := h.split_last
  have ho := h.order
  rw [e] at ho
  have ho1 := List.pairwise_append.1 ho
  have hg : g ∈ l.files := by rw [e]; simp
  have hmx := h.getMax_eq e
  have hown := h.own g hg
  by_cases hm : g.mem.maxSeqNum = NIL
  · have hfs := ((h.top fs g e).1 hm).2
    subst hfs
    have h1 : l.fileBySeq seq = some g := by
      unfold LogMgr.fileBySeq
      rw [bySeqEntry_eq e (by have := hown.nil hm; omega) (by simp) (by simp)]
      simp only []
      have := (h.wf g hg).nil hm
      by_cases hlt : g.mem.maxSeqNum < seq
      · exfalso
        unfold LogMgr.fileBySeq at he
        rw [bySeqEntry_eq e (by have := hown.nil hm; omega) (by simp) (by simp)] at he
        simp only [] at he
        rw [if_neg (by simp [this.2, valid]), if_pos hlt] at he
        have : (l.files.any (fun x => decide (g.startSeq < x.startSeq))) = false := by
          rw [e]; simp
        simp [this] at he
      · rw [if_neg (by simp [this.2, valid]), if_neg hlt]
    rw [h1] at he; cases he
    have h2 := h.minNum_eq
    have h3 := h.last_num e
    rw [e] at h2; simp at h2
    omega
  · exfalso
    rw [if_pos hm] at hmx
    have hlt := hs _ hmx
    have h2 := hown.max hm
    unfold LogMgr.fileBySeq at he
    rw [bySeqEntry_eq e (by omega) (by simp) (fun p hp => (ho1.2.2 p hp g (by simp)).startLe)] at he
    simp only [] at he
    split at he
    · cases he
    · try rw [if_pos hlt] at he
      have : (l.files.any (fun x => decide (g.startSeq < x.startSeq))) = false := by
        rw [e, List.any_eq_false]
        intro x hx
        simp only [List.mem_append, List.mem_singleton] at hx
        rcases hx with hx | rfl
        · have := (ho1.2.2 x hx g (by simp)).startLe; simpa using this
        · simp
      simp [this] at he

/-- Lookup by sequence number finds exactly the pending record with that number. -/
theorem LogInv.getSN_pending {l : LogMgr K} {A B} (h : LogInv l A B) {r : Rec K} (hr : r ∈ B) :
    l.getSN r.seq = (.ok, some r) := by
  rw [h.pend] at hr
  obtain ⟨f, hf, hr⟩ := List.mem_flatMap.1 hr
  have hrs := pending_sub hr
  have hw := h.wf f hf
  have hb := hw.bound r hrs
  unfold LogMgr.getSN
  rw [h.fileBySeq_rec hf hrs]
  simp only [h.bar]
  rw [if_neg (by omega)]
  unfold MemTable.findRecordBySeq
  rw [if_neg]
  · have : f.mem.bySeq.find? (fun x => x.seq == r.seq) = some r := by
      obtain ⟨a, b, e⟩ := List.append_of_mem hrs
      have hs := hw.sorted
      unfold Increasing at hs
      rw [e] at hs ⊢
      rw [List.find?_append]
      have : a.find? (fun x => x.seq == r.seq) = none := by
        rw [List.find?_eq_none]
        intro x hx
        have := (List.pairwise_append.1 hs).2.2 x hx r (by simp)
        simp; omega
      rw [this]; simp
    rw [this]
  · rintro ⟨h1, h2⟩
    unfold LogFile.pending at hr
    have := (List.mem_filter.1 hr).2
    simp [valid_iff.2 h1, h2] at this

/-- Whatever a lookup by sequence number returns is a pending record with that number. -/
theorem LogInv.getSN_sound {l : LogMgr K} {A B} (h : LogInv l A B) {n : Nat} {st : Status} {r : Rec K}
    (hg : l.getSN n = (st, some r)) : st = .ok ∧ r ∈ B ∧ r.seq = n := by
  unfold LogMgr.getSN at hg
  split at hg
  · cases hg
  · next f hfb =>
    split at hg
    · cases hg
    · unfold MemTable.findRecordBySeq at hg
      split at hg
      · cases hg
      · next hfl =>
        split at hg
        · next x hx =>
          cases hg
          have h1 := List.find?_some hx
          have h2 := List.mem_of_find?_eq_some hx
          have h3 : r.seq = n := by simpa using h1
          refine ⟨rfl, ?_, h3⟩
          have hf : f ∈ l.files := by
            unfold LogMgr.fileBySeq at hfb
            have hent : ∀ b, l.bySeqEntry n = some b → b ∈ l.files := by
              intro b hb
              rw [bySeqEntry_fold] at hb
              rcases fold_mem n l.files none b hb with h | h
              · exact h
              · cases h
            split at hfb
            · cases hfb
            · next b hb =>
              split at hfb
              · cases hfb
              · split at hfb
                · simp at hfb
                · cases hfb; exact hent _ hb
          rw [h.pend]
          refine List.mem_flatMap.2 ⟨f, hf, List.mem_filter.2 ⟨h2, ?_⟩⟩
          by_cases hv : f.mem.flushedSeqNum = NIL
          · simp [hv, valid]
          · have : ¬ r.seq ≤ f.mem.flushedSeqNum := fun hle => hfl ⟨hv, by omega⟩
            simp [this]
        · cases hg

/-! ### `LogMgr::flush` -/

/-- The numbers `flushLogs` may be called with: none, that of a record which is synced (or any
    record if `beyondLastSync`), or one above everything written. -/
def LogMgr.flushOk (l : LogMgr K) (o : LogMgr.FlushOpts) (seq : Nat) : Prop :=
  seq = NIL ∨
  (∃ f ∈ l.files, ∃ r ∈ f.mem.bySeq, r.seq = seq ∧
    (o.beyondLastSync = true ∨ (l.lastSynced ≠ NIL ∧ f.num ≤ l.lastSynced))) ∨
  (∀ m, l.getMaxSeqNum = some m → m < seq)

theorem LogInv.max_le {l : LogMgr K} {A B} (h : LogInv l A B) {f g : LogFile K} (hf : f ∈ l.files)
    (hg : g ∈ l.files) (hlt : f.num < g.num) : Before f g := by
  obtain ⟨i, hi, rfl⟩ := List.getElem_of_mem hf
  obtain ⟨j, hj, rfl⟩ := List.getElem_of_mem hg
  rw [h.num_eq i hi, h.num_eq j hj] at hlt
  exact List.pairwise_iff_getElem.1 h.order i j hi hj (by omega)

theorem LogInv.rewind_ok {l : LogMgr K} {A B} (h : LogInv l A B) (beyond : Bool) (fuel lnTo : Nat)
    (h1 : l.minNum ≤ lnTo) (h2 : lnTo ≤ l.maxNum) (h3 : lnTo < l.minNum + fuel) :
    l.rewind beyond l.minNum fuel lnTo = .error .logNotSynced ∨
    ∃ g ∈ l.files, ∃ s, l.rewind beyond l.minNum fuel lnTo = .ok (s, g.num) ∧ g.num ≤ lnTo ∧ s ≠ NIL ∧
      s = (if beyond then g.mem.maxSeqNum else g.mem.syncedSeqNum) := by
  induction fuel generalizing lnTo with
  | zero => omega
  | succ fuel ih =>
    obtain ⟨f, hf, hn, hfi⟩ := h.file?_num h1 h2
    unfold LogMgr.rewind
    simp only [hfi]
    generalize hsx : (if beyond then f.mem.maxSeqNum else f.mem.syncedSeqNum) = sx
    by_cases hs : sx = NIL
    · rw [if_pos hs]
      by_cases hgt : lnTo > l.minNum
      · rw [if_pos hgt]
        rcases ih (lnTo - 1) (by omega) (by omega) (by omega) with h4 | ⟨g, hg, s, h4, h5, h6⟩
        · exact Or.inl h4
        · exact Or.inr ⟨g, hg, s, h4, by omega, h6⟩
      · rw [if_neg hgt]; exact Or.inl rfl
    · rw [if_neg hs]
      exact Or.inr ⟨f, hf, sx, by rw [hn], by omega, hs, hsx.symm⟩

theorem LogInv.min_le_max {l : LogMgr K} {A B} (h : LogInv l A B) : l.minNum ≤ l.maxNum := by
  have := h.minNum_eq
  have : 0 < l.files.length := List.length_pos_iff.2 h.ne
  omega

/-- The last file a flush may touch. -/
theorem LogInv.flushLimit_ok {l : LogMgr K} {A B} (h : LogInv l A B) (o : LogMgr.FlushOpts)
    (hl : l.flushLimit o ≠ NIL) :
    l.minNum ≤ l.flushLimit o ∧ l.flushLimit o ≤ l.maxNum ∧
      (o.beyondLastSync = true ∨ (l.lastSynced ≠ NIL ∧ l.flushLimit o ≤ l.lastSynced)) := by
  have hmm := h.min_le_max
  have hxN := h.numN
  unfold LogMgr.flushLimit at hl ⊢
  simp only [h.getLastFlushedLog_eq] at hl ⊢
  have hbase : (if o.beyondLastSync = true then l.maxNum else l.lastSynced) = NIL ∨
      (l.minNum ≤ (if o.beyondLastSync = true then l.maxNum else l.lastSynced) ∧
      (if o.beyondLastSync = true then l.maxNum else l.lastSynced) ≤ l.maxNum ∧
      (o.beyondLastSync = true ∨ (l.lastSynced ≠ NIL ∧
        (if o.beyondLastSync = true then l.maxNum else l.lastSynced) ≤ l.lastSynced))) := by
    by_cases hb : o.beyondLastSync = true
    · rw [if_pos hb]; exact Or.inr ⟨hmm, Nat.le_refl _, Or.inl hb⟩
    · rw [if_neg hb]
      rcases h.lastS with hl | hl
      · exact Or.inl hl
      · exact Or.inr ⟨hl.1, hl.2, Or.inr ⟨by omega, Nat.le_refl _⟩⟩
  generalize (if o.beyondLastSync = true then l.maxNum else l.lastSynced) = x at hbase hl ⊢
  rcases hbase with hb | ⟨h1, h2, h3⟩
  · rw [if_neg (by simp [hb])] at hl; exact absurd hb hl
  · split
    · next hc =>
      have hmod : (x + (NIL + 1) - l.minNum + 1) % (NIL + 1) = x - l.minNum + 1 := by
        have : x + (NIL + 1) - l.minNum + 1 = (x - l.minNum + 1) + (NIL + 1) := by omega
        rw [this, Nat.add_mod_right, Nat.mod_eq_of_lt (by omega)]
      rw [hmod] at hc
      refine ⟨by omega, by omega, ?_⟩
      rcases h3 with hb | hb
      · exact Or.inl hb
      · exact Or.inr ⟨hb.1, by omega⟩
    · exact ⟨h1, h2, h3⟩

/-- How the number and the last file of a flush depend on its argument. -/
structure LogMgr.FlushTgt (l : LogMgr K) (o : LogMgr.FlushOpts) (seq : Nat) (g : LogFile K) (s : Nat) :
    Prop where
  nil : seq = NIL → s ≠ NIL ∧ s = (if o.beyondLastSync then g.mem.maxSeqNum else g.mem.syncedSeqNum)
  some : seq ≠ NIL → s = seq
  rec' : ∀ f ∈ l.files, ∀ r ∈ f.mem.bySeq, r.seq = seq → g = f

/-- The number and last file of a flush. -/
theorem LogInv.flushTarget_ok {l : LogMgr K} {A B} (h : LogInv l A B) (o : LogMgr.FlushOpts) (seq : Nat)
    (h0 : seq ≠ 0) (hok : l.flushOk o seq) (hl : l.flushLimit o ≠ NIL) :
    l.flushTarget o seq = .error .logNotSynced ∨
    ∃ g ∈ l.files, ∃ s, l.flushTarget o seq = .ok (s, g.num) ∧
      (o.beyondLastSync = true ∨ (l.lastSynced ≠ NIL ∧ g.num ≤ l.lastSynced)) ∧
      (∀ f ∈ l.files, f.num < g.num → f.mem.maxSeqNum ≤ s) ∧
      ((∀ f, l.file? l.minNum = some f →
        ¬ (valid f.mem.flushedSeqNum = true ∧ f.mem.flushedSeqNum ≥ seq)) →
       g.mem.flushedSeqNum ≠ NIL → g.mem.flushedSeqNum ≤ s) ∧ l.FlushTgt o seq g s := by
  have hmN := h.minNum_lt
  have hxN := h.numN
  have hmm := h.min_le_max
  have hlim := h.flushLimit_ok o hl
  obtain ⟨f0, hf0, hn0, hfi0⟩ := h.file?_num (Nat.le_refl _) hmm
  have hfl0 : ∀ f ∈ l.files, f.mem.flushedSeqNum ≠ NIL → f = f0 := by
    intro f hf hfl
    by_contra hne
    have hr := h.num_range hf
    have hnn : f.num ≠ f0.num := by
      intro e
      have h1 := h.file?_mem hf
      have h2 := h.file?_mem hf0
      rw [e, h2] at h1; exact hne (Option.some.inj h1).symm
    exact hfl (h.max_le hf0 hf (by omega)).flushed
  unfold LogMgr.flushTarget
  simp only [h.getLastFlushedLog_eq, h.bar]
  rw [if_neg (by simp : ¬ ((0:Nat) ≠ 0 ∧ 0 < seq))]
  by_cases hN : seq = NIL
  · rw [if_pos hN]
    rcases h.rewind_ok o.beyondLastSync (l.files.length + 1) (l.flushLimit o) hlim.1 hlim.2.1
      (by have := h.minNum_eq; omega) with hr | ⟨g, hg, s, hr, hgl, hsN, hs⟩
    · exact Or.inl hr
    · have hgw := h.wf g hg
      have hle : ∀ f ∈ l.files, f.num < g.num → f.mem.maxSeqNum ≤ s := by
        intro f hf hlt
        have hb := h.max_le hf hg hlt
        cases hbe : o.beyondLastSync
        · rw [hbe] at hs; simp only [Bool.false_eq_true, if_false] at hs
          rw [hs]
          exact hb.synced hb.ne (by rw [← hs]; exact hsN)
        · rw [hbe] at hs; simp only [if_true] at hs
          rw [hs]; exact (hb.max hb.ne).2
      refine Or.inr ⟨g, hg, s, hr, ?_, hle, ?_, fun _ => ⟨hsN, hs⟩, fun h => absurd hN h, ?_⟩
      · rcases hlim.2.2 with hb | hb
        · exact Or.inl hb
        · exact Or.inr ⟨hb.1, by omega⟩
      · intro _ hfl
        cases hbe : o.beyondLastSync
        · rw [hbe] at hs; simp only [Bool.false_eq_true, if_false] at hs
          rcases hgw.order with h2 | h2 | h2
          · omega
          · exact absurd h2 hfl
          · omega
        · rw [hbe] at hs; simp only [if_true] at hs
          rcases hgw.flushed with h2 | h2
          · exact absurd h2 hfl
          · omega
      · intro f hf r hr' hrs
        have := ((h.wf f hf).bound r hr').2.2.2
        omega
  · rw [if_neg hN]
    right
    have hflu : ∀ g ∈ l.files, (∀ f, l.file? l.minNum = some f →
        ¬ (valid f.mem.flushedSeqNum = true ∧ f.mem.flushedSeqNum ≥ seq)) →
       g.mem.flushedSeqNum ≠ NIL → g.mem.flushedSeqNum ≤ seq := by
      intro g hg hno hfl
      have e := hfl0 g hg hfl
      subst e
      have := hno g hfi0
      have hv := valid_iff.2 hfl
      by_contra hx
      exact this ⟨hv, by omega⟩
    rcases hok with hok | ⟨f, hf, r, hr, rfl, hc⟩ | hok
    · exact absurd hok hN
    · rw [h.fileBySeq_rec hf hr]
      refine ⟨f, hf, r.seq, rfl, hc, ?_, hflu f hf, fun h => absurd h hN, fun _ => rfl, ?_⟩
      · intro f' hf' hlt
        have hb := h.max_le hf' hf hlt
        exact Nat.le_of_lt (hb.recs hb.ne r hr)
      · intro f' hf' r' hr' he
        have h1 := h.fileBySeq_rec hf hr false
        rw [← he, h.fileBySeq_rec hf' hr'] at h1
        exact (Option.some.inj h1).symm
    · have hall : ∀ f ∈ l.files, f.mem.maxSeqNum ≠ NIL → f.mem.maxSeqNum ≤ seq := by
        intro f hf hm
        obtain ⟨fs, g, e⟩ := h.split_last
        have hmx := h.getMax_eq e
        have hg : g ∈ l.files := by rw [e]; simp
        have hfr := h.num_range hf
        have hgn := h.last_num e
        rcases Nat.lt_or_ge f.num g.num with hlt | hge
        · have hb := (h.max_le hf hg hlt).max hm
          rw [if_pos hb.1] at hmx
          have := hok _ hmx; omega
        · have h1 := h.file?_mem hf
          rw [show f.num = g.num by omega, h.file?_mem hg] at h1
          have := Option.some.inj h1
          subst this
          rw [if_pos hm] at hmx
          have := hok _ hmx; omega
      have hP : ∀ g ∈ l.files, ∀ f ∈ l.files, f.num < g.num → f.mem.maxSeqNum ≤ seq :=
        fun g hg f hf hlt => hall f hf (h.max_le hf hg hlt).ne
      have hno : ∀ g, l.FlushTgt o seq g seq := fun g =>
        ⟨fun h => absurd h hN, fun _ => rfl, fun f hf r hr he => by
          exfalso
          have hm : f.mem.maxSeqNum ≠ NIL := fun hm => by
            have := ((h.wf f hf).nil hm).1; rw [this] at hr; cases hr
          have h1 := ((h.wf f hf).bound r hr).2.1
          obtain ⟨fs, g, e⟩ := h.split_last
          have hmx := h.getMax_eq e
          have hg : g ∈ l.files := by rw [e]; simp
          have hgn := h.last_num e
          have hfr := h.num_range hf
          rcases Nat.lt_or_ge f.num g.num with hlt | hge
          · have hb := (h.max_le hf hg hlt).max hm
            rw [if_pos hb.1] at hmx
            have := hok _ hmx; omega
          · have h1' := h.file?_mem hf
            rw [show f.num = g.num by omega, h.file?_mem hg] at h1'
            have := Option.some.inj h1'
            subst this
            rw [if_pos hm] at hmx
            have := hok _ hmx; omega⟩
      cases hfs : l.fileBySeq seq with
      | none =>
        obtain ⟨g, hg, hgn, -⟩ := h.file?_num hlim.1 hlim.2.1
        exact ⟨g, hg, seq, by rw [hgn], by rw [hgn]; exact hlim.2.2, hP g hg, hflu g hg, hno g⟩
      | some f =>
        have h1 := h.fileBySeq_above (by omega) hok hfs
        have : l.flushLimit o = l.minNum := by omega
        refine ⟨f0, hf0, seq, ?_, ?_, hP f0 hf0, hflu f0 hf0, hno f0⟩
        · simp only [h1.1, hn0]
        · rw [hn0, ← this]; exact hlim.2.2

/-- What the range computation of a flush yields. -/
theorem LogInv.flushRange_ok {l : LogMgr K} {A B} (h : LogInv l A B) (o : LogMgr.FlushOpts) (seq : Nat)
    (h0 : seq ≠ 0) (hok : l.flushOk o seq) :
    (∃ e, l.flushRange o seq = .error e ∧ e ≠ .undefinedBehaviour ∧ e ≠ .ok) ∨
    ∃ g ∈ l.files, ∃ s, l.flushRange o seq = .ok (l.minNum, g.num, s) ∧
      (o.beyondLastSync = true ∨ (l.lastSynced ≠ NIL ∧ g.num ≤ l.lastSynced)) ∧
      (∀ f ∈ l.files, f.num < g.num → f.mem.maxSeqNum ≤ s) ∧
      (g.mem.flushedSeqNum ≠ NIL → g.mem.flushedSeqNum ≤ s) ∧ l.FlushTgt o seq g s := by
  have hmN := h.minNum_lt
  obtain ⟨f0, hf0, hn0, hfi0⟩ := h.file?_num (Nat.le_refl _) h.min_le_max
  unfold LogMgr.flushRange
  rw [h.getLastFlushedLog_eq]
  by_cases hl : l.flushLimit o = NIL
  · rw [if_pos hl]; exact Or.inl ⟨_, rfl, by decide, by decide⟩
  rw [if_neg hl, if_neg (by omega)]
  rcases h.flushTarget_ok o seq h0 hok hl with ht | ⟨g, hg, s, ht, h1, h2, h3, h4⟩
  · rw [ht]; exact Or.inl ⟨_, rfl, by decide, by decide⟩
  · rw [ht]
    simp only [hfi0]
    by_cases hc : valid f0.mem.flushedSeqNum = true ∧ f0.mem.flushedSeqNum ≥ seq
    · rw [if_pos hc]; exact Or.inl ⟨_, rfl, by decide, by decide⟩
    · rw [if_neg hc]
      refine Or.inr ⟨g, hg, s, rfl, h1, h2, h3 ?_, h4⟩
      intro f hf; rw [hfi0] at hf; cases hf; exact hc

/-- Outcome of a flush: either an error and nothing changed, or a prefix `D` of the pending
    records has left the log section, and the table got a batch `R` which agrees with `D` on
    every key that is no longer pending. -/
structure FlushOk {T : Type} (l : LogMgr K) (A B : List (Rec K)) (t : T)
    (setBatch : T → List (Rec K) → List Nat → T) (l' : LogMgr K) (t' : T) : Prop where
  ex : ∃ D B' R cps, B = D ++ B' ∧ LogInv l' (A ++ D) B' ∧ Increasing R ∧ (∀ r ∈ R, r ∈ B) ∧
    (t' = if R = [] then t else setBatch t R cps) ∧
    ∀ k, lastWrite B' k = none → lastWrite R k = lastWrite D k
  cfg : l'.cfg = l.cfg
  num : l'.maxNum = l.maxNum
  next : l'.nextSeq = l.nextSeq
  max : l'.getMaxSeqNum = l.getMaxSeqNum

/-- The state after a completed flush: the files before `g` are gone, `g` has its marks moved. -/
def LogMgr.flushed (l : LogMgr K) (o : LogMgr.FlushOpts) (s : Nat) (g : LogFile K) (Q : List (LogFile K)) :
    LogMgr K :=
  { l with
    files := ((if o.beyondLastSync = true then g.setSyncedSeqNum s else g).setFlushedSeqNum s) :: Q
    lastFlushed := g.num
    lastSynced := if o.beyondLastSync = true ∧ g.num > l.lastSynced then g.num else l.lastSynced }

/-- The exact effect of a flush. -/
theorem LogInv.flush_shape {T : Type} {l : LogMgr K} {A B} (h : LogInv l A B) (o : LogMgr.FlushOpts) (seq : Nat)
    (hok : l.flushOk o seq) (hp : o.purgeOnly = false) (t : T)
    (setBatch : T → List (Rec K) → List Nat → T) :
    ((∃ e, l.flush o seq t setBatch = (e, l, t) ∧ e ≠ .undefinedBehaviour ∧ e ≠ .ok) ∧
      (seq = 0 ∨ ∃ e, l.flushRange o seq = .error e)) ∨
    ∃ P g Q s, l.files = P ++ g :: Q ∧
      (l.flushRange o seq = .ok (l.minNum, g.num, s) ∧
        l.files.filter (fun f => decide (l.minNum ≤ f.num ∧ f.num ≤ g.num)) = P ++ [g]) ∧
      (o.beyondLastSync = true ∨ (l.lastSynced ≠ NIL ∧ g.num ≤ l.lastSynced)) ∧
      (∀ f ∈ P, f.mem.maxSeqNum ≤ s) ∧
      (g.mem.flushedSeqNum ≠ NIL → g.mem.flushedSeqNum ≤ s) ∧ l.FlushTgt o seq g s ∧
      l.flush o seq t setBatch = (.ok, l.flushed o s g Q,
        if LogMgr.gather s o.beyondLastSync (P ++ [g]) = [] then t
        else setBatch t (LogMgr.gather s o.beyondLastSync (P ++ [g])) (LogMgr.gatherCheckpoints s (P ++ [g]))) := by
  unfold LogMgr.flush
  by_cases h0 : seq = 0
  · rw [if_pos h0]; exact Or.inl ⟨⟨_, rfl, by decide, by decide⟩, Or.inl h0⟩
  rw [if_neg h0]
  rcases h.flushRange_ok o seq h0 hok with ⟨e, he, h1⟩ | ⟨g, hg, s, he, h1, h2, h3, h4⟩
  · rw [he]; exact Or.inl ⟨⟨e, rfl, h1⟩, Or.inr ⟨e, rfl⟩⟩
  · rw [he]
    right
    simp only [hp, Bool.false_eq_true, if_false, true_and]
    obtain ⟨P, Q, hf⟩ := List.append_of_mem hg
    have ho := h.order
    rw [hf] at ho
    have ho1 := List.pairwise_append.1 ho
    have ho2 := List.pairwise_cons.1 ho1.2.1
    have hPn : ∀ f ∈ P, l.minNum ≤ f.num ∧ f.num < g.num := fun f hfP =>
      ⟨(h.num_range (by rw [hf]; simp [hfP])).1, (ho1.2.2 f hfP g (by simp)).num⟩
    have hQn : ∀ f ∈ Q, g.num < f.num := fun f hfQ => (ho2.1 f hfQ).num
    have hgn := h.num_range hg
    have hrng : l.files.filter (fun f => decide (l.minNum ≤ f.num ∧ f.num ≤ g.num)) = P ++ [g] := by
      rw [hf, List.filter_append, List.filter_cons, if_pos (by simpa using hgn.1)]
      have e1 : P.filter (fun f => decide (l.minNum ≤ f.num ∧ f.num ≤ g.num)) = P := by
        rw [List.filter_eq_self]; intro f hfP; have := hPn f hfP; simp; omega
      have e2 : Q.filter (fun f => decide (l.minNum ≤ f.num ∧ f.num ≤ g.num)) = [] := by
        rw [List.filter_eq_nil_iff]; intro f hfQ; have := hQn f hfQ; simp; omega
      rw [e1, e2]
    have hrel := flushRel_of (h.wf g hg) o.beyondLastSync h3
    generalize hg' : ((if o.beyondLastSync = true then g.setSyncedSeqNum s else g).setFlushedSeqNum s) = g' at hrel
    have hfiles : (l.files.map (fun f => if l.minNum ≤ f.num ∧ f.num ≤ g.num then
          (if o.beyondLastSync = true then f.setSyncedSeqNum s else f).setFlushedSeqNum s else f)).filter
          (fun f => !decide (l.minNum ≤ f.num ∧ f.num < g.num)) = g' :: Q := by
      rw [hf, List.map_append, List.filter_append, List.map_cons, if_pos ⟨hgn.1, Nat.le_refl _⟩, hg']
      have hnum : ∀ f : LogFile K, ((if o.beyondLastSync = true then f.setSyncedSeqNum s else f).setFlushedSeqNum s).num = f.num := by
        intro f
        rw [setFlushed_eq]
        have : (if o.beyondLastSync = true then f.setSyncedSeqNum s else f).num = f.num := by
          split
          · rw [setSynced_eq]; split <;> rfl
          · rfl
        generalize (if o.beyondLastSync = true then f.setSyncedSeqNum s else f) = f1 at this
        split <;> exact this
      have e1 : (P.map (fun f => if l.minNum ≤ f.num ∧ f.num ≤ g.num then
          (if o.beyondLastSync = true then f.setSyncedSeqNum s else f).setFlushedSeqNum s else f)).filter
          (fun f => !decide (l.minNum ≤ f.num ∧ f.num < g.num)) = [] := by
        rw [List.filter_eq_nil_iff]
        intro x hx
        obtain ⟨f, hfP, rfl⟩ := List.mem_map.1 hx
        have := hPn f hfP
        rw [if_pos ⟨this.1, by omega⟩, hnum]
        simpa using this
      have e2 : Q.map (fun f => if l.minNum ≤ f.num ∧ f.num ≤ g.num then
          (if o.beyondLastSync = true then f.setSyncedSeqNum s else f).setFlushedSeqNum s else f) = Q := by
        conv => rhs; rw [← List.map_id Q]
        apply List.map_congr_left
        intro f hfQ
        have := hQn f hfQ
        rw [if_neg (by omega)]; rfl
      have e3 : Q.filter (fun f => !decide (l.minNum ≤ f.num ∧ f.num < g.num)) = Q := by
        rw [List.filter_eq_self]; intro f hfQ; have := hQn f hfQ; simp; omega
      rw [e1, e2, List.nil_append, List.filter_cons, if_pos (by rw [hrel.num]; simp), e3]
    rw [hrng, hfiles]
    refine ⟨P, g, Q, s, hf, ⟨rfl, hrng⟩, h1, fun f hfP => h2 f (by rw [hf]; simp [hfP]) (hPn f hfP).2, h3, h4, ?_⟩
    unfold LogMgr.flushed
    rw [hg']
    simp only [ne_eq, ite_not]

theorem LogInv.flush {T : Type} {l : LogMgr K} {A B} (h : LogInv l A B) (o : LogMgr.FlushOpts) (seq : Nat)
    (hok : l.flushOk o seq) (hp : o.purgeOnly = false) (t : T)
    (setBatch : T → List (Rec K) → List Nat → T) :
    (∃ e, l.flush o seq t setBatch = (e, l, t) ∧ e ≠ .undefinedBehaviour ∧ e ≠ .ok) ∨
    ∃ l' t', l.flush o seq t setBatch = (.ok, l', t') ∧ FlushOk l A B t setBatch l' t' := by
  rcases h.flush_shape o seq hok hp t setBatch with ⟨he, -⟩ | ⟨P, g, Q, s, hf, -, h1, h2, h3, -, he⟩
  · exact Or.inl he
  · right
    refine ⟨_, _, he, ?_⟩
    have ho := h.order
    rw [hf] at ho
    have hg : g ∈ l.files := by rw [hf]; simp
    have hrel := flushRel_of (h.wf g hg) o.beyondLastSync h3
    unfold LogMgr.flushed
    generalize hg' : ((if o.beyondLastSync = true then g.setSyncedSeqNum s else g).setFlushedSeqNum s) = g' at hrel
    have hcore := h.flush_core hf h1 h2 hrel
    simp only [] at hcore
    obtain ⟨c1, c2, c3⟩ := hcore
    have hwPg : ∀ f ∈ P ++ [g], f.mem.WF := fun f hf' => h.wf f (by
      rw [hf]
      simp only [List.mem_append, List.mem_singleton] at hf'
      rcases hf' with h | h <;> simp [h])
    have hoPg : (P ++ [g]).Pairwise Before :=
      List.Pairwise.sublist (List.Sublist.append_left (by simp) P) ho
    have hge := gather_eq (P ++ [g]) hwPg hoPg s o.beyondLastSync
    refine ⟨⟨_, _, LogMgr.gather s o.beyondLastSync (P ++ [g]), LogMgr.gatherCheckpoints s (P ++ [g]),
      c2, c1, ?_, ?_, ?_, c3⟩, rfl, rfl, ?_, ?_⟩
    · rw [hge]
      have hsub : ((P ++ [g]).flatMap (LogFile.contrib s o.beyondLastSync)).Sublist B := by
        rw [h.pend, hf, show P ++ g :: Q = (P ++ [g]) ++ Q by simp, List.flatMap_append (xs := P ++ [g])]
        refine List.Sublist.trans ?_ (List.sublist_append_left _ _)
        have : ∀ L : List (LogFile K), (L.flatMap (LogFile.contrib s o.beyondLastSync)).Sublist (L.flatMap LogFile.pending) := by
          intro L
          induction L with
          | nil => exact List.Sublist.refl _
          | cons a L ih =>
            rw [List.flatMap_cons, List.flatMap_cons]
            refine List.Sublist.append ?_ ih
            unfold LogFile.contrib
            split
            · exact List.nil_sublist _
            · exact List.filter_sublist
        exact this _
      have hinc := (List.pairwise_append.1 h.inc).2.1
      exact List.Pairwise.sublist hsub hinc
    · intro r hr
      rw [hge] at hr
      obtain ⟨f, hf', hr⟩ := List.mem_flatMap.1 hr
      rw [h.pend, hf]
      refine List.mem_flatMap.2 ⟨f, ?_, contrib_sub hr⟩
      simp only [List.mem_append, List.mem_singleton] at hf'
      rcases hf' with h | h <;> simp [h]
    · rfl
    · rcases List.eq_nil_or_concat Q with rfl | ⟨Q', q, rfl⟩
      · rw [nextSeq_snoc (l := l) hf, nextSeq_snoc (fs := []) (f := g') rfl]
        unfold MemTable.next; rw [hrel.max, hrel.mstart]
      · rw [List.concat_eq_append] at hf ⊢
        rw [nextSeq_snoc (l := l) (fs := P ++ g :: Q') (f := q) (by rw [hf]; simp),
          nextSeq_snoc (fs := g' :: Q') (f := q) rfl]
    · rcases List.eq_nil_or_concat Q with rfl | ⟨Q', q, rfl⟩
      · rw [h.getMax_eq hf]
        have := c1.getMax_eq (fs := []) (f := g') rfl
        rw [hrel.max] at this; exact this
      · rw [List.concat_eq_append] at hf c1 ⊢
        rw [h.getMax_eq (fs := P ++ g :: Q') (f := q) (by rw [hf]; simp)]
        exact c1.getMax_eq (fs := g' :: Q') (f := q) rfl

end Jungle
