/-
  What the iterator of the log section shows: for every key its last write that is still in the log.
-/
import Verif.Iter.Compose
import Verif.Log.FlushLemmas2

set_option linter.unusedSectionVars false

namespace Jungle.Iter
open Spec
variable {K : Type} [LinearOrder K]

/-- The key is not outside `[lo, hi]`. -/
def InRange (lo hi : Option K) (k : K) : Prop :=
  (∀ a, lo = some a → a ≤ k) ∧ ∀ b, hi = some b → k ≤ b

theorem seq_inj {h : List (Rec K)} (hi : Increasing h) {a b : Rec K} (ha : a ∈ h) (hb : b ∈ h)
    (e : a.seq = b.seq) : a = b := by
  induction h with
  | nil => cases ha
  | cons c h ih =>
    obtain ⟨h1, h2⟩ := List.pairwise_cons.1 hi
    rcases List.mem_cons.1 ha with ha | ha <;> rcases List.mem_cons.1 hb with hb | hb
    · rw [ha, hb]
    · have := h1 b hb; rw [ha] at e; omega
    · have := h1 a ha; rw [hb] at e; omega
    · exact ih h2 ha hb

/-- Every key that occurs in a record that is not a marker has a last write. -/
theorem lastWrite_some {h : List (Rec K)} {x : Rec K} (hx : x ∈ h) (hc : x.isCmd = false) :
    ∃ r, lastWrite h x.key = some r := by
  cases hl : lastWrite h x.key with
  | some r => exact ⟨r, rfl⟩
  | none => have := lastWrite_none.1 hl x hx rfl; rw [hc] at this; cases this

/-- The node of a key shows its last write, if that is in the window of numbers. -/
theorem nodeRec_eq {L : List (Rec K)} (hne : L ≠ []) {mn mx : Nat} (hmn : mn ≠ NIL)
    (hmx : ∀ r ∈ L, r.seq ≤ mx) :
    nodeRec mn mx L = match L.getLast? with
      | none => none
      | some r => if mn ≤ r.seq then some r else none := by
  obtain ⟨r0, L', rfl⟩ := List.exists_cons_of_ne_nil hne
  have h0 := hmx r0 List.mem_cons_self
  unfold nodeRec
  simp only
  rw [if_neg (by omega)]
  unfold getLatestRecord
  rw [MemTable.find?_reverse_filter]
  have : (r0 :: L').filter (fun r => !valid mx || decide (r.seq ≤ mx)) = r0 :: L' := by
    rw [List.filter_eq_self]
    intro r hr
    simp [hmx r hr]
  rw [this]
  cases (r0 :: L').getLast? with
  | none => rfl
  | some r => simp [valid_iff.2 hmn]

/-- What the iterator over one log file shows. -/
theorem logLeaf_in {f : LogFile K} (hf : f.mem.WF) {mn mx : Nat} (hmn : mn ≠ NIL)
    (hmx : ∀ r ∈ f.mem.bySeq, r.seq ≤ mx)
    (hfl : ∀ r ∈ f.mem.bySeq, (f.mem.flushedSeqNum ≠ NIL ∧ r.seq ≤ f.mem.flushedSeqNum) ↔ r.seq < mn)
    (lo hi : Option K) (e : Rec K) :
    leafIn (logLeaf lo hi mn mx f) e ↔ lastWrite f.pending e.key = some e ∧ InRange lo hi e.key := by
  have hnode : ∀ k, keyRecs f.mem.bySeq k ≠ [] →
      nodeRec mn mx (keyRecs f.mem.bySeq k) = lastWrite f.pending k := by
    intro k hk
    rw [nodeRec_eq hk hmn (fun r hr => hmx r (List.mem_filter.1 hr).1), lastWrite_pending hf.look,
      lastWrite_eq]
    cases hl : (keyRecs f.mem.bySeq k).getLast? with
    | none => rfl
    | some r =>
      have hr := (List.mem_filter.1 (List.mem_of_getLast? hl)).1
      have := hfl r hr
      by_cases hc : mn ≤ r.seq
      · simp only; rw [if_pos hc]; rw [if_neg (fun h => absurd (this.1 h) (by omega))]
      · simp only; rw [if_neg hc]; rw [if_pos (this.2 (by omega))]
  unfold leafIn
  constructor
  · rintro ⟨⟨k, L⟩, hn, hb, ha, hv⟩
    have hn' : (k, L) ∈ f.mem.byKey := hn
    rw [SMap.mem_iff_find? hf.keys] at hn'
    have hi := hf.idx k
    rw [hn'] at hi
    have hi : L = keyRecs f.mem.bySeq k := hi
    subst hi
    by_cases hne : keyRecs f.mem.bySeq k = []
    · have hv' : nodeRec mn mx (keyRecs f.mem.bySeq k) = some e := hv
      rw [hne] at hv'
      exact absurd hv' (by simp [nodeRec])
    · have hv' : nodeRec mn mx (keyRecs f.mem.bySeq k) = some e := hv
      rw [hnode k hne] at hv'
      have hk := (lastWrite_mem hv').2.1
      subst hk
      exact ⟨hv', Leaf.below_false.1 hb, Leaf.above_false.1 ha⟩
  · rintro ⟨hw, hr⟩
    have hm := lastWrite_mem hw
    have hne : keyRecs f.mem.bySeq e.key ≠ [] := by
      intro h0
      have : e ∈ keyRecs f.mem.bySeq e.key := by
        rw [mem_keyRecs]
        exact ⟨(List.mem_filter.1 hm.1).1, hm.2.2, rfl⟩
      rw [h0] at this
      cases this
    refine ⟨(e.key, keyRecs f.mem.bySeq e.key), ?_, Leaf.below_false.2 hr.1, Leaf.above_false.2 hr.2, ?_⟩
    · show (e.key, keyRecs f.mem.bySeq e.key) ∈ f.mem.byKey
      rw [SMap.mem_iff_find? hf.keys]
      have hi := hf.idx e.key
      cases hfd : f.mem.byKey.find? e.key with
      | none => rw [hfd] at hi; exact absurd hi.symm hne
      | some L => rw [hfd] at hi; exact congrArg some hi
    · exact (hnode _ hne).trans hw

/-- The parts of the log invariant about the window of numbers. -/
theorem availSeqRange_eq {l : LogMgr K} {A B} (h : LogInv l A B) :
    ∃ f fs g gs, l.files = f :: fs ∧ l.files = gs ++ [g] ∧
      availSeqRange l = some (if f.mem.flushedSeqNum = NIL then 0 else f.mem.flushedSeqNum + 1,
        g.mem.maxSeqNum) := by
  obtain ⟨gs, g, hg⟩ := h.split_last
  obtain ⟨f, fs, hf⟩ := List.exists_cons_of_ne_nil h.ne
  refine ⟨f, fs, g, gs, hf, hg, ?_⟩
  have hfm : f ∈ l.files := by rw [hf]; exact List.mem_cons_self
  have hgm : g ∈ l.files := by rw [hg]; simp
  have hfn : f.num = l.minNum := by unfold LogMgr.minNum; rw [hf]
  unfold availSeqRange
  rw [h.getLastFlushedLog_eq, ← hfn, ← h.last_num hg, h.file?_mem hfm, h.file?_mem hgm]
  simp only
  by_cases hn : f.mem.flushedSeqNum = NIL
  · simp [hn]
  · rw [if_neg hn, if_neg hn, inc64_of_lt]
    rcases (h.wf f hfm).flushed with h1 | h1
    · exact absurd h1 hn
    · omega

theorem fileBySeq_mem {l : LogMgr K} {seq : Nat} {g : LogFile K} (he : l.fileBySeq seq = some g) :
    g ∈ l.files ∧ g.startSeq ≤ seq ∧ seq ≤ g.mem.maxSeqNum := by
  unfold LogMgr.fileBySeq at he
  cases hb : l.bySeqEntry seq with
  | none => rw [hb] at he; cases he
  | some b =>
    rw [hb] at he
    simp only at he
    have hmem : b ∈ l.files ∧ b.startSeq ≤ seq := by
      have key : ∀ (L : List (LogFile K)) (o : Option (LogFile K)),
          (∀ x, o = some x → x ∈ l.files ∧ x.startSeq ≤ seq) → (∀ x ∈ L, x ∈ l.files) →
          ∀ b, L.foldl (seqStep seq) o = some b → b ∈ l.files ∧ b.startSeq ≤ seq := by
        intro L
        induction L with
        | nil => intro o ho _ b hb; exact ho b hb
        | cons f L ih =>
          intro o ho hL b hb
          rw [List.foldl_cons] at hb
          refine ih _ ?_ (fun x hx => hL x (List.mem_cons_of_mem _ hx)) b hb
          intro x hx
          unfold seqStep at hx
          split at hx
          · next hc =>
            split at hx
            · cases hx; exact ⟨hL f List.mem_cons_self, hc⟩
            · split at hx
              · cases hx; exact ⟨hL f List.mem_cons_self, hc⟩
              · cases hx; exact ho _ rfl
          · exact ho x hx
      exact key l.files none (by intro x hx; cases hx) (fun x hx => hx) b hb
    split at he
    · cases he
    · split at he
      · simp at he
      · cases he
        exact ⟨hmem.1, hmem.2, by omega⟩

theorem before_of_num {l : LogMgr K} {A B} (h : LogInv l A B) {f g : LogFile K} (hf : f ∈ l.files)
    (hg : g ∈ l.files) (hn : f.num < g.num) : Before f g := by
  obtain ⟨i, hi, rfl⟩ := List.getElem_of_mem hf
  obtain ⟨j, hj, rfl⟩ := List.getElem_of_mem hg
  have h1 := h.num_eq i hi
  have h2 := h.num_eq j hj
  exact List.pairwise_iff_getElem.1 h.order i j hi hj (by omega)

theorem mem_pending {f : LogFile K} {r : Rec K} :
    r ∈ f.pending ↔ r ∈ f.mem.bySeq ∧ ¬ (f.mem.flushedSeqNum ≠ NIL ∧ r.seq ≤ f.mem.flushedSeqNum) := by
  unfold LogFile.pending
  rw [List.mem_filter]
  by_cases hv : f.mem.flushedSeqNum = NIL
  · simp [hv, valid]
  · simp [valid_iff.2 hv, hv]

/-- The window of numbers separates what is pending from what is flushed, and every file with
    pending records is opened. -/
theorem itrRange_spec {l : LogMgr K} {A B} (h : LogInv l A B) :
    (itrRange l NIL NIL = none ∧ B = []) ∨
    ∃ mn mx, itrRange l NIL NIL = some (mn, mx) ∧ mn ≠ NIL ∧
      (∀ f ∈ l.files, ∀ r ∈ f.mem.bySeq, r.seq ≤ mx ∧
        ((f.mem.flushedSeqNum ≠ NIL ∧ r.seq ≤ f.mem.flushedSeqNum) ↔ r.seq < mn)) ∧
      ∀ f ∈ l.files, f.pending ≠ [] → f ∈ itrFiles l mn mx := by
  obtain ⟨f0, fs, g, gs, hf0, hg, ha⟩ := availSeqRange_eq h
  have hf0m : f0 ∈ l.files := by rw [hf0]; exact List.mem_cons_self
  have hgm : g ∈ l.files := by rw [hg]; simp
  have hord := h.order
  have hle : ∀ f ∈ l.files, ∀ r ∈ f.mem.bySeq, r.seq ≤ g.mem.maxSeqNum := by
    intro f hf r hr
    have hb := (h.wf f hf).bound r hr
    rw [hg] at hf hord
    rcases List.mem_append.1 hf with h1 | h1
    · have hB := (List.pairwise_append.1 hord).2.2 f h1 g (by simp)
      have := hB.max hB.ne
      omega
    · simp only [List.mem_singleton] at h1; subst h1; exact hb.2.1
  have hsep : ∀ f ∈ l.files, ∀ r ∈ f.mem.bySeq,
      ((f.mem.flushedSeqNum ≠ NIL ∧ r.seq ≤ f.mem.flushedSeqNum) ↔
        r.seq < if f0.mem.flushedSeqNum = NIL then 0 else f0.mem.flushedSeqNum + 1) := by
    intro f hf r hr
    rw [hf0] at hf hord
    rcases List.mem_cons.1 hf with h1 | h1
    · subst h1
      by_cases hn : f.mem.flushedSeqNum = NIL
      · simp [hn]
      · rw [if_neg hn]; constructor
        · rintro ⟨_, h2⟩; omega
        · intro h2; exact ⟨hn, by omega⟩
    · have hB := (List.pairwise_cons.1 hord).1 f h1
      constructor
      · rintro ⟨h2, _⟩; exact absurd hB.flushed h2
      · intro h2
        exfalso
        by_cases hn : f0.mem.flushedSeqNum = NIL
        · rw [if_pos hn] at h2; omega
        · rw [if_neg hn] at h2
          have h3 := hB.recs hB.ne r hr
          rcases (h.wf f0 hf0m).flushed with h4 | h4
          · exact hn h4
          · omega
  generalize hmn : (if f0.mem.flushedSeqNum = NIL then 0 else f0.mem.flushedSeqNum + 1) = mn at *
  have hrange : itrRange l NIL NIL =
      if g.mem.maxSeqNum < mn then none else some (mn, g.mem.maxSeqNum) := by
    unfold itrRange
    rw [ha]
    simp [valid, h.bar]
  by_cases hlt : g.mem.maxSeqNum < mn
  · left
    refine ⟨by rw [hrange, if_pos hlt], ?_⟩
    rw [h.pend, List.flatMap_eq_nil_iff]
    intro f hf
    by_contra hne
    obtain ⟨r, hr⟩ := List.exists_mem_of_ne_nil _ hne
    rw [mem_pending] at hr
    have h1 := hle f hf r hr.1
    exact hr.2 ((hsep f hf r hr.1).2 (by omega))
  · right
    have hmnN : mn ≠ NIL := by
      intro e
      have hgN := (h.wf g hgm).le_nil
      by_cases hn : f0.mem.flushedSeqNum = NIL
      · rw [if_pos hn] at hmn; rw [← hmn] at e; exact absurd e (by decide)
      · rcases (h.wf f0 hf0m).flushed with h4 | h4
        · exact hn h4
        · rw [hf0] at hgm
          rcases List.mem_cons.1 hgm with h5 | h5
          · rw [h5] at hlt; omega
          · have hB := (List.pairwise_cons.1 (hf0 ▸ hord)).1 g h5
            have := hB.max hB.ne
            have hN : g.mem.maxSeqNum = NIL := by omega
            exact this.1 hN
    refine ⟨mn, g.mem.maxSeqNum, by rw [hrange, if_neg hlt], hmnN,
      fun f hf r hr => ⟨hle f hf r hr, hsep f hf r hr⟩, ?_⟩
    intro f hf hne
    obtain ⟨r, hr⟩ := List.exists_mem_of_ne_nil _ hne
    rw [mem_pending] at hr
    have hrmn : mn ≤ r.seq := by
      by_contra hc
      exact hr.2 ((hsep f hf r hr.1).2 (by omega))
    have hrmx := ((h.wf f hf).bound r hr.1).2.1
    have hfrom : itrFrom l mn ≤ f.num := by
      unfold itrFrom
      rw [if_pos (valid_iff.2 hmnN)]
      cases hb : l.fileBySeq mn with
      | none => simp only; rw [h.getLastFlushedLog_eq]; exact (h.num_range hf).1
      | some x =>
        simp only
        obtain ⟨hx, hxs, _⟩ := fileBySeq_mem hb
        by_contra hc
        have hB := before_of_num h hf hx (by omega)
        have := hB.start hB.ne
        omega
    unfold itrFiles
    rw [List.mem_filter]
    refine ⟨hf, ?_⟩
    rw [decide_eq_true hfrom, Bool.true_and, decide_eq_true_eq]
    unfold itrTo
    by_cases hv : g.mem.maxSeqNum = NIL
    · simp only [hv, valid, bne_self_eq_false, Bool.false_eq_true, if_false]
      exact (h.num_range hf).2
    · rw [if_pos (valid_iff.2 hv)]
      cases hb : l.fileBySeq g.mem.maxSeqNum with
      | none => simp only; exact (h.num_range hf).2
      | some x =>
        simp only
        obtain ⟨hx, _, hxm⟩ := fileBySeq_mem hb
        by_contra hc
        have hB := before_of_num h hx hf (by omega)
        have h5 := hB.recs hB.ne r hr.1
        have := hle f hf r hr.1
        omega

/-- What the iterator of the log section shows. -/
def LogQ (B : List (Rec K)) (lo hi : Option K) (e : Rec K) : Prop :=
  lastWrite B e.key = some e ∧ InRange lo hi e.key

abbrev logSpec (X : (Rec K → Prop) → Prop) (lo hi : Option K) : CSpec (LogIt K) (Rec K) K :=
  mergeSpec keyPar (withX (leafSpec keyPar .memKey lo hi) X)

theorem keyPar_rank : (keyPar (K := K)).byKey = false → ∀ a b, (keyPar (K := K)).rank a = (keyPar (K := K)).rank b := by
  intro h; cases h

theorem log_laws (X : (Rec K → Prop) → Prop) (lo hi : Option K) :
    Laws keyPar (logOps (K := K)) (logSpec X lo hi) :=
  merge_laws (withX_laws (leaf_laws _ _ _ _) X) keyPar_rank

/-- Two keys or none. -/
def TwoKeys (P : Rec K → Prop) : Prop := ∀ x, P x → ∃ a b, P a ∧ P b ∧ a.key ≠ b.key

theorem log_opened {l : LogMgr K} {A B} (h : LogInv l A B) (lo hi : Option K) {fr : Bool}
    (hfr : fr = true → ∀ f ∈ l.files, TwoKeys (LogQ f.pending lo hi)) {X : (Rec K → Prop) → Prop}
    (hX : ∀ f ∈ l.files, (∃ y, LogQ f.pending lo hi y) → X (LogQ f.pending lo hi)) :
    Opened keyPar (logOps (K := K)) (logSpec X lo hi) fr (LogQ B lo hi) (logItr l lo hi) := by
  rcases itrRange_spec h with ⟨h1, h2⟩ | ⟨mn, mx, h1, h2, h3, h4⟩
  · unfold logItr
    rw [h1]
    refine ⟨fun e he => (by cases he), fun _ y hy => ?_⟩
    have := hy.1
    rw [h2] at this
    cases this
  · have hleaf : ∀ f ∈ l.files, ∀ e, leafIn (logLeaf lo hi mn mx f) e ↔ LogQ f.pending lo hi e :=
      fun f hf e => logLeaf_in (h.wf f hf) h2 (fun r hr => (h3 f hf r hr).1)
        (fun r hr => (h3 f hf r hr).2) lo hi e
    have hsub : ∀ f ∈ itrFiles l mn mx, f ∈ l.files := fun f hf => (List.mem_filter.1 hf).1
    have hinc : Increasing B := (List.pairwise_append.1 h.inc).2.1
    have hB : ∀ f ∈ l.files, ∀ e, LogQ f.pending lo hi e → e ∈ B := by
      intro f hf e he
      rw [h.pend, List.mem_flatMap]
      exact ⟨f, hf, (lastWrite_mem he.1).1⟩
    unfold logItr
    rw [h1]
    refine open_idx (P := fun s e => leafIn s e) (withX_laws (leaf_laws _ _ _ _) X) keyPar_rank ?_ ?_ ?_
    · intro s hs
      obtain ⟨f, hf, rfl⟩ := List.mem_map.1 hs
      have hwf := h.wf f (hsub f hf)
      have hP : leafIn (logLeaf lo hi mn mx f) = LogQ f.pending lo hi :=
        funext fun e => propext (hleaf f (hsub f hf) e)
      suffices ho : Opened keyPar (Leaf.ops .memKey) (leafSpec keyPar .memKey lo hi) fr
          (leafIn (logLeaf lo hi mn mx f)) (logLeaf lo hi mn mx f) by
        refine withX_opened ho ?_
        rintro ⟨e, he⟩
        rw [hP]
        refine hX f (hsub f hf) ⟨e, (hleaf f (hsub f hf) e).1 ?_⟩
        exact (leaf_laws _ _ _ _).mem (ho.some e he).1
      refine leaf_opened hwf.keys ?_ (fun hk => (by cases hk)) ?_
      · rintro ⟨k, L⟩ hn e he
        have hn' : (k, L) ∈ f.mem.byKey := hn
        rw [SMap.mem_iff_find? hwf.keys] at hn'
        have hi := hwf.idx k
        rw [hn'] at hi
        have hi : L = keyRecs f.mem.bySeq k := hi
        subst hi
        by_cases hne : keyRecs f.mem.bySeq k = []
        · have hv' : nodeRec mn mx (keyRecs f.mem.bySeq k) = some e := he
          rw [hne] at hv'
          exact absurd hv' (by simp [nodeRec])
        · have hv' : nodeRec mn mx (keyRecs f.mem.bySeq k) = some e := he
          rw [nodeRec_eq hne h2 (fun r hr => (h3 f (hsub f hf) r (List.mem_filter.1 hr).1).1)] at hv'
          cases hl : (keyRecs f.mem.bySeq k).getLast? with
          | none => rw [hl] at hv'; cases hv'
          | some r =>
            rw [hl] at hv'
            simp only at hv'
            split at hv'
            · cases hv'
              exact (mem_keyRecs.1 (List.mem_of_getLast? hl)).2.2
            · cases hv'
      · intro hfr' x hx
        obtain ⟨a, b, ha, hb, hab⟩ := hfr hfr' f (hsub f hf) x ((hleaf f (hsub f hf) x).1 hx)
        exact ⟨a, b, (hleaf f (hsub f hf) a).2 ha, (hleaf f (hsub f hf) b).2 hb, hab⟩
    · intro s hs s' hs' x y hx hy _ hrank
      obtain ⟨f, hf, rfl⟩ := List.mem_map.1 hs
      obtain ⟨f', hf', rfl⟩ := List.mem_map.1 hs'
      exact seq_inj hinc (hB f (hsub f hf) x ((hleaf f (hsub f hf) x).1 hx))
        (hB f' (hsub f' hf') y ((hleaf f' (hsub f' hf') y).1 hy)) hrank
    · -- contents
      have hone : ∀ e, lastWrite B e.key = some e → InRange lo hi e.key →
          ∃ s ∈ (itrFiles l mn mx).map (logLeaf lo hi mn mx), leafIn s e := by
        intro e he hr
        have hm := lastWrite_mem he
        have hm1 := hm.1
        rw [h.pend, List.mem_flatMap] at hm1
        obtain ⟨f, hf, hef⟩ := hm1
        refine ⟨_, List.mem_map_of_mem (h4 f hf (List.ne_nil_of_mem hef)), (hleaf f hf e).2 ⟨?_, hr⟩⟩
        obtain ⟨y, hy⟩ := lastWrite_some hef hm.2.2
        have hym := lastWrite_mem hy
        have hyB : y ∈ B := by rw [h.pend, List.mem_flatMap]; exact ⟨f, hf, hym.1⟩
        have h5 := lastWrite_max hinc he hyB hym.2.1 hym.2.2
        have hinf : Increasing f.pending :=
          List.Pairwise.sublist List.filter_sublist (h.wf f hf).sorted
        have h6 := lastWrite_max hinf hy hef rfl hm.2.2
        rw [hy, seq_inj hinc hyB hm.1 (by omega)]
      intro e
      constructor
      · rintro ⟨he, hr⟩
        refine ⟨hone e he hr, ?_⟩
        rintro e' ⟨s, hs, hse⟩ hk
        obtain ⟨f, hf, rfl⟩ := List.mem_map.1 hs
        have hq := (hleaf f (hsub f hf) e').1 hse
        exact lastWrite_max hinc he (hB f (hsub f hf) e' hq) hk (lastWrite_mem hq.1).2.2
      · rintro ⟨⟨s, hs, hse⟩, hmax⟩
        obtain ⟨f, hf, rfl⟩ := List.mem_map.1 hs
        have hq := (hleaf f (hsub f hf) e).1 hse
        have heB := hB f (hsub f hf) e hq
        refine ⟨?_, hq.2⟩
        obtain ⟨y, hy⟩ := lastWrite_some heB (lastWrite_mem hq.1).2.2
        have hym := lastWrite_mem hy
        have h5 := lastWrite_max hinc hy heB rfl (lastWrite_mem hq.1).2.2
        have h6 := hmax y (hone y (by rw [hym.2.1]; exact hy) (by rw [hym.2.1]; exact hq.2)) hym.2.1
        have h6' : y.seq ≤ e.seq := h6
        rw [hy, seq_inj hinc hym.1 heB (by omega)]

end Jungle.Iter
