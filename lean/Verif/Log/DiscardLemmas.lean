/-
  What `discardDirty` leaves of the log section, and flushes that hand over exactly the records
  they move below the flush mark.
-/
import Verif.Log.Discard
import Verif.Log.FlushLemmas2

set_option linter.unusedSectionVars false

namespace Jungle
open Spec
variable {K : Type} [LinearOrder K]

/-- Records with numbers below `n`. -/
def below (n : Nat) (L : List (Rec K)) : List (Rec K) := L.filter (fun r => decide (r.seq < n))

theorem mem_below {n : Nat} {L : List (Rec K)} {r : Rec K} : r ∈ below n L ↔ r ∈ L ∧ r.seq < n := by
  simp [below]

theorem below_append (n : Nat) (L M : List (Rec K)) : below n (L ++ M) = below n L ++ below n M := by
  simp [below]

namespace MemTable

theorem discard_byKey_find (m : MemTable K) (n : Nat) (k : K) :
    ((m.discardDirty n).byKey.find? k) = (m.byKey.find? k).map (fun L =>
      if (m.bySeq.filter (fun r => decide (r.seq ≥ n))).any (fun r => decide (r.key = k))
      then discardRecords L n else L) := by
  unfold discardDirty
  simp only
  generalize (m.bySeq.filter (fun r => decide (r.seq ≥ n))) = gone
  induction m.byKey with
  | nil => rfl
  | cons e es ih =>
    obtain ⟨a, L⟩ := e
    by_cases hk : a = k
    · subst hk
      simp only [List.map_cons, SMap.find?]
      by_cases hg : gone.any (fun r => decide (r.key = a)) = true
      · simp [hg]
      · simp only [Bool.not_eq_true] at hg; simp [hg]
    · simp only [List.map_cons, SMap.find?] at ih ⊢
      by_cases hg : gone.any (fun r => decide (r.key = a)) = true
      · simp only [hg, if_true, hk, if_false]; exact ih
      · simp only [Bool.not_eq_true] at hg
        simp only [hg, Bool.false_eq_true, hk, if_false]; exact ih

theorem WF.discard {m : MemTable K} (h : WF m) (n : Nat) : WF (m.discardDirty n) := by
  refine ⟨List.Pairwise.sublist List.filter_sublist h.sorted, ?_, ?_, h.alloc, ?_, h.le_nil, ?_,
    h.minle, h.synced, h.flushed, h.order⟩
  · have hs := h.keys
    unfold SMap.Sorted at hs ⊢
    unfold discardDirty
    simp only
    rw [List.pairwise_map]
    refine hs.imp ?_
    intro a b hab
    split <;> split <;> exact hab
  · intro k
    rw [discard_byKey_find]
    have hi := h.idx k
    have hb : keyRecs (m.discardDirty n).bySeq k = (keyRecs m.bySeq k).filter (fun r => decide (r.seq < n)) := by
      unfold keyRecs discardDirty
      simp only [List.filter_filter]
      apply List.filter_congr
      intro r _
      exact Bool.and_comm _ _
    rw [hb, ← hi]
    cases hf : m.byKey.find? k with
    | none => rfl
    | some L =>
      rw [hf] at hi
      have hi : L = keyRecs m.bySeq k := hi
      simp only [Option.map_some, Option.getD_some]
      by_cases hg : (m.bySeq.filter (fun r => decide (r.seq ≥ n))).any (fun r => decide (r.key = k)) = true
      · rw [if_pos hg]; rfl
      · rw [if_neg hg]
        symm
        rw [List.filter_eq_self]
        intro r hr
        rw [hi, mem_keyRecs] at hr
        by_contra hlt
        apply hg
        rw [List.any_eq_true]
        refine ⟨r, ?_, by simp [hr.2.2]⟩
        rw [List.mem_filter]
        simp only [decide_eq_true_eq] at hlt ⊢
        exact ⟨hr.1, by omega⟩
  · intro hm
    have := h.nil hm
    refine ⟨?_, this.2⟩
    show m.bySeq.filter _ = []
    rw [this.1]; rfl
  · intro r hr
    exact h.bound r (List.mem_filter.1 hr).1

/-- Nothing to discard: the table stays as it is. -/
theorem discard_id {m : MemTable K} {n : Nat} (h : ∀ r ∈ m.bySeq, r.seq < n) : m.discardDirty n = m := by
  unfold discardDirty
  have h1 : m.bySeq.filter (fun r => decide (r.seq ≥ n)) = [] := by
    rw [List.filter_eq_nil_iff]; intro r hr; have := h r hr; simp; omega
  have h2 : m.bySeq.filter (fun r => decide (r.seq < n)) = m.bySeq := by
    rw [List.filter_eq_self]; intro r hr; simpa using h r hr
  simp only [h1, h2, List.any_nil, Bool.false_eq_true, if_false, List.map_id']

end MemTable

theorem pending_discard (f : LogFile K) (n : Nat) : (f.discardDirty n).pending = below n f.pending := by
  unfold LogFile.pending below LogFile.discardDirty MemTable.discardDirty
  simp only [List.filter_filter]
  apply List.filter_congr
  intro r _
  exact Bool.and_comm _ _

/-- The log section with the records from `n` on gone from every file. -/
def LogMgr.cut (l : LogMgr K) (n : Nat) : LogMgr K :=
  { l with files := l.files.map (fun f => f.discardDirty n) }

theorem fold_le (seq : Nat) (L : List (LogFile K)) (o : Option (LogFile K)) (b : LogFile K)
    (ho : ∀ x, o = some x → x.startSeq ≤ seq) (h : L.foldl (seqStep seq) o = some b) : b.startSeq ≤ seq := by
  induction L generalizing o with
  | nil => exact ho b h
  | cons f L ih =>
    rw [List.foldl_cons] at h
    refine ih _ ?_ h
    intro x hx
    unfold seqStep at hx
    split at hx
    · next hle =>
      split at hx
      · cases hx; exact hle
      · split at hx
        · cases hx; exact hle
        · exact ho x hx
    · exact ho x hx

/-- `discardDirty` fails without effect or cuts every file. -/
theorem LogInv.discard_eq {l : LogMgr K} {A B} (h : LogInv l A B) (n : Nat) :
    l.discardDirty n = (.logFileNotFound, l) ∨ l.discardDirty n = (.ok, l.cut n) := by
  unfold LogMgr.discardDirty
  rw [if_neg (by simp [h.rw]), if_neg (Nat.ne_of_lt h.numN)]
  cases hf : l.fileBySeq n with
  | none => exact Or.inl rfl
  | some f =>
    right
    have hfm : f ∈ l.files ∧ f.startSeq ≤ n := by
      unfold LogMgr.fileBySeq at hf
      cases he : l.bySeqEntry n with
      | none => rw [he] at hf; cases hf
      | some g =>
        have hgm : g ∈ l.files ∧ g.startSeq ≤ n := by
          rw [bySeqEntry_fold] at he
          refine ⟨?_, fold_le n l.files none g (by simp) he⟩
          rcases fold_mem n l.files none g he with h1 | h1
          · exact h1
          · cases h1
        rw [he] at hf
        simp only at hf
        split at hf
        · cases hf
        · split at hf
          · split at hf
            · cases hf
            · cases hf; exact hgm
          · cases hf; exact hgm
    simp only [Prod.mk.injEq, true_and]
    unfold LogMgr.cut
    congr 1
    apply List.map_congr_left
    intro g hg
    split
    · rfl
    · next hc =>
      have hr := h.num_range hg
      have hb := h.max_le hg hfm.1 (by omega)
      have hst := hb.start hb.ne
      have : g.mem.discardDirty n = g.mem := by
        apply MemTable.discard_id
        intro r hr
        have := ((h.wf g hg).bound r hr).2.1
        omega
      show g = g.discardDirty n
      unfold LogFile.discardDirty
      rw [this]

theorem LogInv.cut {l : LogMgr K} {A B} (h : LogInv l A B) (n : Nat) : LogInv (l.cut n) A (below n B) := by
  have hmin : (l.cut n).minNum = l.minNum := by
    unfold LogMgr.minNum LogMgr.cut
    cases l.files <;> rfl
  refine ⟨h.rw, h.noOv, h.bar, ?_, ?_, h.numN, ?_, ?_, h.entries, ?_, ?_, ?_, ?_, ?_, ?_, ?_, ?_, ?_, ?_⟩
  · simpa [LogMgr.cut] using h.ne
  · obtain ⟨a, h1, h2⟩ := h.nums
    refine ⟨a, ?_, by simpa [LogMgr.cut] using h2⟩
    simp only [LogMgr.cut, List.map_map, List.length_map]
    rw [← h1]; rfl
  · intro f hf
    obtain ⟨g, hg, rfl⟩ := List.mem_map.1 hf
    exact (h.wf g hg).discard n
  · intro f hf
    obtain ⟨g, hg, rfl⟩ := List.mem_map.1 hf
    have := h.own g hg
    exact ⟨fun r hr => this.recs r (List.mem_filter.1 hr).1, this.max, this.nil⟩
  · intro f hf
    obtain ⟨g, hg, rfl⟩ := List.mem_map.1 hf
    exact h.emptyW g hg
  · intro f hf
    obtain ⟨g, hg, rfl⟩ := List.mem_map.1 hf
    exact h.emptyS g hg
  · simp only [LogMgr.cut, List.pairwise_map]
    refine h.order.imp ?_
    intro a b hb
    exact ⟨hb.num, hb.max, fun hm r hr => hb.recs hm r (List.mem_filter.1 hr).1, hb.min, hb.synced, hb.start,
      hb.flushed, hb.startLe, hb.ne⟩
  · rw [hmin]; exact h.lastF
  · rw [hmin]; exact h.lastS
  · rw [hmin]
    intro hl f hf
    obtain ⟨g, hg, rfl⟩ := List.mem_map.1 hf
    exact h.syncedLe hl g hg
  · intro f fs hf r hr
    cases hl : l.files with
    | nil => exact absurd hl h.ne
    | cons g gs =>
      simp only [LogMgr.cut, hl, List.map_cons, List.cons.injEq] at hf
      rw [← hf.1]
      exact h.mark g gs hl r hr
  · rw [h.pend]
    simp only [LogMgr.cut]
    induction l.files with
    | nil => rfl
    | cons a L ih => rw [List.flatMap_cons, below_append, ih, List.map_cons, List.flatMap_cons, pending_discard]
  · exact List.Pairwise.sublist (List.Sublist.append_left List.filter_sublist A) h.inc
  · intro fs f hf
    obtain ⟨gs, g, hg⟩ := h.split_last
    have ht := h.top gs g hg
    have e : gs.map (fun f => f.discardDirty n) ++ [g.discardDirty n] = fs ++ [f] := by
      rw [← hf]; simp [LogMgr.cut, hg]
    obtain ⟨e1, e2⟩ := List.append_inj' e (by simp)
    simp only [List.cons.injEq, and_true] at e2
    subst e1; subst e2
    refine ⟨fun hm => ?_, fun hm r hr => ?_⟩
    · have := ht.1 hm
      rw [List.append_eq_nil_iff] at this
      exact ⟨by rw [this.1.1, this.1.2]; rfl, by rw [this.2]; rfl⟩
    · refine ht.2 hm r ?_
      rcases List.mem_append.1 hr with h1 | h1
      · simp [h1]
      · simp [(mem_below.1 h1).1]

theorem LogInv.cut_getMax {l : LogMgr K} {A B} (h : LogInv l A B) (n : Nat) :
    (l.cut n).getMaxSeqNum = l.getMaxSeqNum := by
  obtain ⟨fs, f, hf⟩ := h.split_last
  rw [h.getMax_eq hf, (h.cut n).getMax_eq (fs := fs.map (fun f => f.discardDirty n)) (f := f.discardDirty n)
    (by simp [LogMgr.cut, hf])]
  rfl

/-- A file of a flush hands over exactly the records it moves below its mark, if the flush has
    no explicit number or takes unsynced records along. -/
theorem contrib_exact {f f' : LogFile K} (w : f.mem.WF) {s : Nat} {beyond : Bool}
    (hrel : FlushRel s beyond f f')
    (hx : beyond = true ∨ (f.mem.syncedSeqNum ≠ NIL ∧ s = f.mem.syncedSeqNum)) :
    f.contrib s beyond = f.moved f' := by
  unfold LogFile.contrib
  rw [if_neg (by rintro ⟨h1, h2⟩; rcases hx with h | h; · rw [h] at h1; cases h1
                 · exact h.1 h2)]
  unfold LogFile.moved
  apply List.filter_congr
  intro r hr
  have hb := w.bound r (pending_sub hr)
  have hm : f.mem.maxSeqNum ≠ NIL := fun hm => by
    have := pending_sub hr
    rw [(w.nil hm).1] at this; cases this
  have hle := w.le_nil
  cases hby : beyond with
  | true =>
    have e := hrel.valB hby hm
    have hv : valid f'.mem.flushedSeqNum = true := valid_iff.2 (by rw [e]; exact Nat.ne_of_lt (Nat.lt_of_le_of_lt (Nat.min_le_right _ _) (by omega)))
    rw [hv, e]
    have hmin : Nat.min s f.mem.maxSeqNum = min s f.mem.maxSeqNum := rfl
    by_cases hc : r.seq ≤ s
    · have : r.seq ≤ Nat.min s f.mem.maxSeqNum := by rw [hmin]; omega
      simp [hc, this]
    · have : ¬ r.seq ≤ Nat.min s f.mem.maxSeqNum := by rw [hmin]; omega
      simp [hc, this]
  | false =>
    rcases hx with h | ⟨h1, h2⟩
    · rw [hby] at h; cases h
    · have e := hrel.val hby h1
      rw [← h2] at e
      have hss : Nat.min s s = s := Nat.min_self s
      rw [hss] at e
      have hv : valid f'.mem.flushedSeqNum = true := valid_iff.2 (by rw [e, h2]; exact h1)
      rw [hv, e]; simp

/-- A flush without an explicit number, or taking unsynced records along: the records that
    leave the log section are exactly those the tables get. -/
theorem LogInv.flush_exact {T : Type} {l : LogMgr K} {A B} (h : LogInv l A B) (o : LogMgr.FlushOpts) (seq : Nat)
    (hok : l.flushOk o seq) (hx : seq = NIL ∨ o.beyondLastSync = true) (hp : o.purgeOnly = false) (t : T)
    (setBatch : T → List (Rec K) → List Nat → T) :
    (∃ e, l.flush o seq t setBatch = (e, l, t) ∧ e ≠ .undefinedBehaviour ∧ e ≠ .ok) ∨
    ∃ l' t', l.flush o seq t setBatch = (.ok, l', t') ∧ l'.cfg = l.cfg ∧
      l'.getMaxSeqNum = l.getMaxSeqNum ∧
      ∃ D B' cps, B = D ++ B' ∧ LogInv l' (A ++ D) B' ∧ Increasing D ∧
        t' = if D = [] then t else setBatch t D cps := by
  rcases h.flush o seq hok hp t setBatch with he | ⟨l', t', he, ho⟩
  · exact Or.inl he
  right
  refine ⟨l', t', he, ho.cfg, ho.max, ?_⟩
  rcases h.flush_shape o seq hok hp t setBatch with ⟨⟨e, he', h1, h2⟩, -⟩ | ⟨P, g, Q, s, hf, -, h1, h2, h3, h4, he'⟩
  · rw [he] at he'; cases he'; exact absurd rfl h2
  rw [he] at he'
  have el := congrArg (fun x => x.2.1) he'
  have et := congrArg (fun x => x.2.2) he'
  simp only at el et
  subst el; subst et
  have ho := h.order
  rw [hf] at ho
  have ho1 := List.pairwise_append.1 ho
  have hg : g ∈ l.files := by rw [hf]; simp
  have hrel := flushRel_of (h.wf g hg) o.beyondLastSync h3
  unfold LogMgr.flushed
  generalize hg' : ((if o.beyondLastSync = true then g.setSyncedSeqNum s else g).setFlushedSeqNum s) = g' at hrel
  have hcore := h.flush_core hf h1 h2 hrel
  simp only [] at hcore
  obtain ⟨c1, c2, -⟩ := hcore
  have hge : LogMgr.gather s o.beyondLastSync (P ++ [g]) = P.flatMap LogFile.pending ++ g.moved g' := by
    rw [gather_eq (P ++ [g]) (fun f hf' => h.wf f (by
        rw [hf]
        simp only [List.mem_append, List.mem_singleton] at hf'
        rcases hf' with h | h <;> simp [h]))
      (List.Pairwise.sublist (List.Sublist.append_left (by simp) P) ho), List.flatMap_append]
    have hP : P.flatMap (LogFile.contrib s o.beyondLastSync) = P.flatMap LogFile.pending := by
      have : ∀ f ∈ P, f.contrib s o.beyondLastSync = f.pending := by
        intro f hfP
        have hwf := h.wf f (by rw [hf]; simp [hfP])
        unfold LogFile.contrib
        split
        · next hc =>
          rcases h1 with hb | hb
          · rw [hb] at hc; simp at hc
          · have hlt := (ho1.2.2 f hfP g (by simp)).num
            by_cases he : f.mem.bySeq = []
            · unfold LogFile.pending; rw [he]; rfl
            · exact absurd hc.2 (h.syncedLe hb.1 f (by rw [hf]; simp [hfP]) (by omega)
                (fun hm => he (hwf.nil hm).1))
        · rw [List.filter_eq_self]
          intro r hr
          have h1 := hwf.bound r (pending_sub hr)
          have h2 := h2 f hfP
          simp; omega
      exact flatMap_congr_mem this
    rw [hP]
    simp only [List.flatMap_cons, List.flatMap_nil, List.append_nil]
    rw [contrib_exact (h.wf g hg) hrel]
    by_cases hb : o.beyondLastSync = true
    · exact Or.inl hb
    · right
      rcases hx with hx | hx
      · have := h4.nil hx
        rw [if_neg hb] at this
        exact ⟨by rw [← this.2]; exact this.1, this.2⟩
      · exact absurd hx hb
  refine ⟨_, _, LogMgr.gatherCheckpoints s (P ++ [g]), c2, c1, ?_, by rw [hge]⟩
  have := (List.pairwise_append.1 h.inc).2.1
  rw [c2] at this
  exact (List.pairwise_append.1 this).1

end Jungle
