/-
  Opening a snapshot: which checkpoints are listed and what the snapshot shows at once and later.
-/
import Verif.DB.SnapView

set_option linter.unusedSectionVars false

namespace Jungle
open Spec
variable {K : Type} [LinearOrder K] [OrderBot K] {c : TCfg K} {parts : Nat} {hp : 0 < parts} {keep : Nat}

theorem mem_setInsert {n m : Nat} {l : List Nat} : m ∈ setInsert n l ↔ m = n ∨ m ∈ l := by
  induction l with
  | nil => simp [setInsert]
  | cons a l ih =>
    unfold setInsert
    split
    · simp
    · split
      · next h => subst h; simp
      · simp only [List.mem_cons, ih]; tauto

theorem setInsert_sorted {n : Nat} {l : List Nat} (h : l.Pairwise (· < ·)) : (setInsert n l).Pairwise (· < ·) := by
  induction l with
  | nil => exact List.pairwise_singleton _ _
  | cons a l ih =>
    have h' := List.pairwise_cons.1 h
    unfold setInsert
    split
    · next hlt =>
      refine List.pairwise_cons.2 ⟨?_, h⟩
      intro b hb
      rcases List.mem_cons.1 hb with e | e
      · omega
      · have := h'.1 b e; omega
    · split
      · exact h
      · refine List.pairwise_cons.2 ⟨?_, ih h'.2⟩
        intro b hb
        rcases mem_setInsert.1 hb with e | e
        · omega
        · exact h'.1 b e

theorem foldl_setInsert (l : List Nat) (s : List Nat) (hs : s.Pairwise (· < ·)) :
    (l.foldl (fun s n => setInsert n s) s).Pairwise (· < ·) ∧
    ∀ m, m ∈ l.foldl (fun s n => setInsert n s) s ↔ m ∈ l ∨ m ∈ s := by
  induction l generalizing s with
  | nil => exact ⟨hs, by simp⟩
  | cons a l ih =>
    obtain ⟨h1, h2⟩ := ih (setInsert a s) (setInsert_sorted hs)
    refine ⟨h1, fun m => ?_⟩
    rw [List.foldl_cons, h2 m, mem_setInsert, List.mem_cons]; tauto

/-- The list of checkpoints: ascending, a suffix of everything that is available. -/
theorem getCheckpoints_spec (db : DB K (LsmC c parts hp keep)) (hc : db.check .read = .ok) :
    ∃ all : List Nat, all.Pairwise (· < ·) ∧ db.getCheckpoints = (.ok, all.drop (all.length - keep)) ∧
      (∀ n ∈ db.log.getAvailCheckpoints, n ∈ all) ∧
      ∀ n ∈ all, n ∈ db.log.getAvailCheckpoints ∨ n ∈ CMgr.availCheckpoints (db.table : CMgr K) := by
  unfold DB.getCheckpoints
  rw [if_neg (by simp [hc])]
  simp only []
  refine ⟨_, (foldl_setInsert _ [] List.Pairwise.nil).1, rfl, ?_, ?_⟩
  · intro n hn
    rw [(foldl_setInsert _ [] List.Pairwise.nil).2]
    left; split
    · exact List.mem_append_left _ hn
    · exact hn
  · intro n hn
    rw [(foldl_setInsert _ [] List.Pairwise.nil).2] at hn
    rcases hn with hn | hn
    · split at hn
      · exact List.mem_append.1 hn
      · exact Or.inl hn
    · cases hn

theorem LogInv.lastLog {l : LogMgr K} {A B : List (Rec K)} (hl : LogInv l A B) : l.getLastFlushedLog = l.minNum := by
  unfold LogMgr.getLastFlushedLog
  rcases hl.lastF with h | h
  · rw [if_pos h]
  · split
    · rfl
    · exact h

theorem LogMgr.bySeqEntry_mem {l : LogMgr K} {n : Nat} {b : LogFile K} (hb : l.bySeqEntry n = some b) : b ∈ l.files := by
  rw [bySeqEntry_fold] at hb
  rcases fold_mem n l.files none b hb with h | h
  · exact h
  · cases h

theorem mem_availLog {l : LogMgr K} {A B : List (Rec K)} (hl : LogInv l A B) {n : Nat} :
    n ∈ l.getAvailCheckpoints ↔ ∃ f ∈ l.files, n ∈ f.mem.checkpoints ∧ ¬ (f.mem.flushedSeqNum ≠ NIL ∧ n ≤ f.mem.flushedSeqNum) := by
  unfold LogMgr.getAvailCheckpoints
  rw [List.mem_flatMap]
  constructor
  · rintro ⟨f, hf, h1⟩
    obtain ⟨h2, h3, -⟩ := mem_getCheckpoints.1 h1
    exact ⟨f, (List.mem_filter.1 hf).1, h2, h3⟩
  · rintro ⟨f, hf, h1, h2⟩
    refine ⟨f, ?_, mem_getCheckpoints.2 ⟨h1, h2, Or.inr rfl⟩⟩
    rw [List.mem_filter]
    refine ⟨hf, ?_⟩
    have h3 := hl.num_le hf
    obtain ⟨i, hi, e⟩ := List.getElem_of_mem hf
    have h4 := hl.num_eq i hi
    have h5 := hl.lastLog
    rw [e] at h4
    simp; omega

/-- An available checkpoint of the log is newer than everything in the tables. -/
theorem DInv.availLog {db : DB K (LsmC c parts hp keep)} {A B : List (Rec K)} (hd : DInv db A B) (hl : LogInv db.log A B)
    {n : Nat} (h : n ∈ db.log.getAvailCheckpoints) :
    (∃ f ∈ db.log.files, ∃ r ∈ f.mem.bySeq, r.seq = n ∧ r ∈ B) ∧ ∀ a ∈ A, a.seq < n := by
  unfold LogMgr.getAvailCheckpoints at h
  obtain ⟨f, hf, h1⟩ := List.mem_flatMap.1 h
  have hf := (List.mem_filter.1 hf).1
  obtain ⟨h2, h3, -⟩ := mem_getCheckpoints.1 h1
  obtain ⟨r, hr, hre⟩ := (hd.chk f hf).recs n h2
  have hB : r ∈ B := by
    rw [hl.pend]
    exact List.mem_flatMap.2 ⟨f, hf, mem_pending.2 ⟨hr, by rw [hre]; exact h3⟩⟩
  refine ⟨⟨f, hf, r, hr, hre, hB⟩, fun a ha => ?_⟩
  rw [← hre]
  exact (List.pairwise_append.1 hl.inc).2.2 a ha r hB

theorem mem_availTab {t : CMgr K} {n : Nat} (h : n ∈ t.availCheckpoints) (p : Nat) (hp : p < t.tab.parts) :
    ∃ x ∈ t.tab.l0, x.hashNum = p ∧ ∃ e ∈ t.marks x.number, e.chk = n := by
  unfold CMgr.availCheckpoints at h
  have := (List.mem_filter.1 h).2
  rw [List.all_eq_true] at this
  have := this p (List.mem_range.2 hp)
  simp only [List.contains_iff_mem, List.mem_flatMap, List.mem_filter, List.mem_map] at this
  obtain ⟨x, ⟨h1, h2⟩, ⟨e, h3, h4⟩, -⟩ := this
  exact ⟨x, h1, by simpa using h2, e, h3, h4⟩

theorem DInv.availTab {db : DB K (LsmC c parts hp keep)} {A B : List (Rec K)} (hd : DInv db A B)
    {n : Nat} (h : n ∈ CMgr.availCheckpoints (db.table : CMgr K)) : ∃ r ∈ A, r.seq = n := by
  obtain ⟨x, h1, -, e, h2, rfl⟩ := mem_availTab h 0 hd.marks.inv.pos
  exact (hd.marks.entry x h1 e h2).chk

theorem LogInv.lastFlushedSeq_eq {l : LogMgr K} {A B : List (Rec K)} (hl : LogInv l A B) {f : LogFile K} {fs}
    (hf : l.files = f :: fs) : l.getLastFlushedSeqNum = if f.mem.flushedSeqNum = NIL then none else some f.mem.flushedSeqNum := by
  have hmin : l.minNum = f.num := by unfold LogMgr.minNum; rw [hf]
  have : l.getLastFlushedLog = f.num := hl.lastLog.trans hmin
  unfold LogMgr.getLastFlushedSeqNum
  rw [this, hl.file?_mem (by rw [hf]; simp)]

/-- Everything in the tables has a number up to the last flushed one. -/
theorem LogInv.flushed_le {l : LogMgr K} {A B : List (Rec K)} (hl : LogInv l A B) :
    ∀ r ∈ A, r.seq ≤ l.getLastFlushedSeqNum.getD 0 := by
  intro r hr
  cases hf : l.files with
  | nil => exact absurd hf hl.ne
  | cons f fs =>
    obtain ⟨h1, h2⟩ := hl.mark f fs hf r hr
    rw [hl.lastFlushedSeq_eq hf, if_neg h1]
    exact h2

/-- The files a snapshot takes hold of, in general. -/
theorem LogInv.open_some {l : LogMgr K} {A B : List (Rec K)} (hl : LogInv l A B)
    {chk : Nat} (h0 : chk ≠ 0) (hle : chk ≤ l.getMaxSeqNum.getD 0) {lf : Nat} {fs : List (LogFile K)}
    (ho : l.snapFiles chk lf = some fs) :
      LView l chk fs (MemTable.upto (l.files.flatMap (·.mem.bySeq)) chk) := by
  unfold LogMgr.snapFiles LogMgr.openSnapshot at ho
  rw [if_neg (by omega)] at ho
  split at ho
  · cases ho
  cases hfb : l.fileBySeq chk with
  | none => rw [hfb] at ho; cases ho
  | some f =>
    rw [hfb] at ho
    simp only [Option.map_some, Option.some.injEq] at ho
    obtain ⟨hf, hmx⟩ : f ∈ l.files ∧ (chk ≤ f.mem.maxSeqNum) := by
      unfold LogMgr.fileBySeq at hfb
      cases hb : l.bySeqEntry chk with
      | none => rw [hb] at hfb; cases hfb
      | some g =>
        rw [hb] at hfb
        simp only [] at hfb
        have hg : g ∈ l.files := LogMgr.bySeqEntry_mem hb
        split at hfb
        · cases hfb
        · split at hfb
          · simp at hfb
          · cases hfb; exact ⟨hg, by omega⟩
    have hfs : fs = l.files.filter (fun g => decide (g.num ≤ f.num)) := by
      rw [← ho]
      apply List.filter_congr
      intro g hg
      simp only [List.mem_map, List.mem_filter, decide_eq_true_eq, decide_eq_decide]
      constructor
      · rintro ⟨g', ⟨h1, h2⟩, h3⟩; rw [← h3]; exact h2
      · intro h1; exact ⟨g, ⟨hg, h1⟩, rfl⟩
    subst hfs
    refine ⟨hle, ?_, ?_, ?_, ?_⟩
    · obtain ⟨P, Q, e⟩ := List.append_of_mem hf
      have ho := hl.order
      rw [e] at ho ⊢
      have ho1 := List.pairwise_append.1 ho
      have ho2 := List.pairwise_cons.1 ho1.2.1
      rw [upto_flatMap, List.filter_append, List.filter_cons, if_pos (by simp), List.filter_eq_self.2, List.filter_eq_nil_iff.2,
        List.flatMap_append, List.flatMap_append, List.flatMap_cons, List.flatMap_cons]
      · congr 2
        symm
        rw [List.flatMap_nil, List.flatMap_eq_nil_iff]
        intro g hg
        apply upto_new
        intro r' hr'
        exact Nat.lt_of_le_of_lt hmx ((ho2.1 g hg).recs (ho2.1 g hg).ne r' hr')
      · intro g hg
        have := (ho2.1 g hg).num
        simp; omega
      · intro g hg
        have := (ho1.2.2 g hg f (by simp)).num
        simp; omega
    · intro g hg; exact (hl.wf g (List.mem_filter.1 hg).1).look
    · intro g hg; exact hl.num_le (List.mem_filter.1 hg).1
    · intro g hg; exact Or.inl (List.mem_filter.1 hg).1

/-- From the two parts of the view to the answer. -/
theorem SView.answer {db db' : DB K (LsmC c parts hp keep)} {sn : Snap K} {chk : Nat} {T}
    {A B : List (Rec K)} (hd : DInv db A B) (hl : LogInv db.log A B)
    (v : SView db' sn chk (MemTable.upto (db.log.files.flatMap (·.mem.bySeq)) chk) T)
    (hN : chk ≠ NIL) (hc : db'.check .read = .ok) (hm : db'.log.cfg.logSectionOnly = false) (k : K) :
    (∀ o, T k = .ok o → vis o = valueOf (MemTable.upto A chk) k → db'.snapGet sn k = Spec.answer (MemTable.upto (A ++ B) chk) k) ∧
    (T k = .error .snapshotNotFound → db'.snapGet sn k = Spec.answer (MemTable.upto (A ++ B) chk) k ∨
      db'.snapGet sn k = (.snapshotNotFound, none)) := by
  have hw := hd.lastWrite hl chk k
  unfold Spec.answer
  rw [v.get hN hc hm k, hw]
  cases Spec.lastWrite (MemTable.upto (db.log.files.flatMap (·.mem.bySeq)) chk) k with
  | some r => exact ⟨fun _ _ _ => rfl, fun _ => Or.inl rfl⟩
  | none =>
    refine ⟨fun o ho hv => ?_, fun h => Or.inr (by rw [h])⟩
    rw [ho]
    simp only []
    unfold valueOf at hv
    have hdi : ∀ r : Rec K, r.isDel = true → r.isIns = false := by
      intro r h; unfold Rec.isDel at h; unfold Rec.isIns; cases ht : r.type <;> simp_all
    cases hlw : Spec.lastWrite (MemTable.upto A chk) k with
    | none =>
      rw [hlw] at hv
      cases o with
      | none => rfl
      | some r =>
        simp only [vis] at hv
        split at hv
        · next h => simp [hdi r h]
        · cases hv
    | some w =>
      rw [hlw] at hv
      have hwc := (lastWrite_mem hlw).2.2
      cases o with
      | none =>
        simp only [vis] at hv
        split at hv
        · next h => simp [hdi w h]
        · cases hv
      | some r =>
        simp only [vis] at hv
        split at hv
        · next h =>
          split at hv
          · next h' => simp [hdi r h, hdi w h']
          · cases hv
        · split at hv
          · cases hv
          · cases hv; rfl

/-! ### a checkpoint stays available until it is flushed -/

/-- A file of the log has the checkpoint. -/
def LogMgr.Has (l : LogMgr K) (n : Nat) : Prop := ∃ f ∈ l.files, n ∈ f.mem.checkpoints

theorem LogInv.one_file {l : LogMgr K} {A B : List (Rec K)} (hl : LogInv l A B) {f g : LogFile K} (hf : f ∈ l.files)
    (hg : g ∈ l.files) {r r' : Rec K} (hr : r ∈ f.mem.bySeq) (hr' : r' ∈ g.mem.bySeq) (e : r.seq = r'.seq) : f = g := by
  have h1 := hl.fileBySeq_rec hf hr false
  have h2 := hl.fileBySeq_rec hg hr' false
  rw [e, h2] at h1
  exact (Option.some.inj h1).symm

theorem DInv.has_step {db db' : DB K (LsmC c parts hp keep)} {cs cs' : List PMani} {n n' : Nat} {A B N : List (Rec K)}
    (hi : PInv ⟨db, cs⟩ n A B) {A' B' : List (Rec K)} (hi' : PInv ⟨db', cs'⟩ n' A' B') (he : A' ++ B' = A ++ B ++ N)
    (hf : Eff db A B db' N) (hd : DInv db A B) {m : Nat} (h : db.log.Has m ∨ ∃ a ∈ A, m ≤ a.seq) :
    db'.log.Has m ∨ ∃ a ∈ A', m ≤ a.seq := by
  have hl := hi.inv.log
  have hl' := hi'.inv.log
  have hAA : (A'.length ≥ A.length) → (∃ a ∈ A, m ≤ a.seq) → ∃ a ∈ A', m ≤ a.seq := by
    rintro hlen ⟨a, ha, hle⟩
    refine ⟨a, ?_, hle⟩
    have h1 : A <+: A' ++ B' := ⟨B ++ N, by rw [he, List.append_assoc]⟩
    have h2 : A' <+: A' ++ B' := ⟨B', rfl⟩
    exact (List.prefix_of_prefix_length_le h1 h2 hlen).subset ha
  cases hf with
  | write hw ht =>
    have hB' : B' = B ++ N := by rw [hl'.pend, hl.pend]; exact hw.pend
    have hA' : A' = A := by
      rw [hB', ← List.append_assoc] at he
      exact List.append_cancel_right (List.append_cancel_right he)
    subst hA'
    rcases h with ⟨f, hf, hm⟩ | h
    · left
      obtain ⟨f', h1, h2⟩ := hw.old f hf
      refine ⟨f', h1, ?_⟩
      rcases hw.files f' h1 with ⟨h3, -⟩ | ⟨f0, h3, h4, -, h5, -⟩
      · have : f.num ≤ db.log.maxNum := hl.num_le hf
        omega
      · have : f0 = f := hl.num_inj h3 hf (by rw [← h4, h2])
        subst this; rw [h5]; exact hm
    · exact Or.inr h
  | touch ht _ =>
    obtain ⟨-, -, φ, h1, h2⟩ := ht
    have hB' : B' = B := by
      rw [hl'.pend, hl.pend, h1, List.flatMap_map]
      apply flatMap_congr_mem
      intro f hf
      obtain ⟨-, a, -, b, -⟩ := h2 f hf
      unfold LogFile.pending; rw [a, b]
    have hA' : A' = A := by
      rw [hB', List.append_nil] at he; exact List.append_cancel_right he
    subst hA'
    rcases h with ⟨f, hf, hm⟩ | h
    · left
      refine ⟨φ f, by rw [h1]; exact List.mem_map_of_mem hf, ?_⟩
      rcases (h2 f hf).2.2.2.2 with h3 | ⟨-, -, h3⟩
      · rw [h3]; exact hm
      · rw [h3]; exact List.mem_append_left _ hm
    · exact Or.inr h
  | @flush o P g Q s hF hlog htab =>
    obtain ⟨g', e, hrel, hfl, hsN, hga, hB⟩ := hF.exact hl
    have hfiles' : db'.log.files = g' :: Q := by rw [hlog, e]; rfl
    have hB' : B' = g'.pending ++ Q.flatMap LogFile.pending := by
      rw [hl'.pend, hfiles', List.flatMap_cons]
    have hA' : A' = A ++ LogMgr.gather s o.beyondLastSync (P ++ [g]) := by
      have h1 : A' ++ B' = (A ++ LogMgr.gather s o.beyondLastSync (P ++ [g])) ++ B' := by
        rw [he, List.append_nil, List.append_assoc, hB', ← hB]
      exact List.append_cancel_right h1
    rcases h with ⟨f, hf, hm⟩ | h
    · obtain ⟨r, hr, hre⟩ := (hd.chk f hf).recs m hm
      have hchk : g'.mem.checkpoints = g.mem.checkpoints := by rw [e]; exact flushUpd_chk g s _
      have hgf : g ∈ db.log.files := by rw [hF.files]; simp
      have hf2 := hf
      rw [hF.files] at hf2
      rcases List.mem_append.1 hf2 with hP | hP
      · right
        refine ⟨r, ?_, Nat.le_of_eq hre.symm⟩
        obtain ⟨D, hD⟩ := hd.flat
        have hAB : r ∈ A ++ B := by
          rw [hD]; exact List.mem_append_right _ (List.mem_flatMap.2 ⟨f, hf, hr⟩)
        rw [hA']
        rcases List.mem_append.1 hAB with h1 | h1
        · exact List.mem_append_left _ h1
        · refine List.mem_append_right _ ?_
          rw [hB] at h1
          have ho := hl.order
          rw [hF.files] at ho
          have hfb : ∀ q ∈ g :: Q, f.num < q.num := fun q hq => ((List.pairwise_append.1 ho).2.2 f hP q hq).num
          rcases List.mem_append.1 h1 with h2 | h2
          · exact h2
          · exfalso
            rcases List.mem_append.1 h2 with h3 | h3
            · have h4 := (mem_pending.1 h3).1
              rw [hrel.bySeq] at h4
              have := hl.one_file hf hgf hr h4 rfl
              subst this
              exact absurd (hfb f (by simp)) (by omega)
            · obtain ⟨q, hq, h4⟩ := List.mem_flatMap.1 h3
              have := hl.one_file hf (by rw [hF.files]; simp [hq]) hr (mem_pending.1 h4).1 rfl
              subst this
              exact absurd (hfb f (by simp [hq])) (by omega)
      · left
        rcases List.mem_cons.1 hP with h1 | h1
        · subst h1; exact ⟨g', by rw [hfiles']; simp, by rw [hchk]; exact hm⟩
        · exact ⟨f, by rw [hfiles']; simp [h1], hm⟩
    · right; exact hAA (by rw [hA']; simp) h
  | maint hlog _ =>
    have hB' : B' = B := by rw [hl'.pend, hl.pend, hlog]
    have hA' : A' = A := by
      rw [hB', List.append_nil] at he; exact List.append_cancel_right he
    subst hA'
    rcases h with ⟨f, hf, hm⟩ | h
    · left; exact ⟨f, by rw [hlog]; exact hf, hm⟩
    · exact Or.inr h

theorem DInv.has_avail {db : DB K (LsmC c parts hp keep)} {A B : List (Rec K)} (hl : LogInv db.log A B) (hd : DInv db A B)
    {m : Nat} (h : db.log.Has m) (hm : ∀ a ∈ A, a.seq < m) : m ∈ db.log.getAvailCheckpoints := by
  obtain ⟨f, hf, h1⟩ := h
  obtain ⟨r, hr, hre⟩ := (hd.chk f hf).recs m h1
  refine (mem_availLog hl).2 ⟨f, hf, h1, fun h2 => ?_⟩
  obtain ⟨D, hD⟩ := hd.flat
  have hAB : r ∈ A ++ B := by
    rw [hD]; exact List.mem_append_right _ (List.mem_flatMap.2 ⟨f, hf, hr⟩)
  rcases List.mem_append.1 hAB with h3 | h3
  · have := hm r h3; omega
  · rw [hl.pend] at h3
    obtain ⟨g, hg, h4⟩ := List.mem_flatMap.1 h3
    have h5 := mem_pending.1 h4
    have := hl.one_file hf hg hr h5.1 rfl
    subst this
    exact h5.2 (by rw [hre]; exact h2)

/-- The database `db'` is reached from `db` by calls and table maintenance; `h` and `h'` are the
    accepted writes. -/
inductive Later : DB K (LsmC c parts hp keep) → List (Rec K) → DB K (LsmC c parts hp keep) → List (Rec K) → Prop
  | refl {db h} : Later db h db h
  | call {db h db1 h1 db2 h2} : Later db h db1 h1 → Act db1 h1 db2 h2 → Later db h db2 h2
  | maint {db h db1 h1 t} : Later db h db1 h1 → (LsmC c parts hp keep).maint db1.table t →
      Later db h { db1 with table := t } h1

theorem Later.spec {db db' : DB K (LsmC c parts hp keep)} {h h' : List (Rec K)} (hl : Later db h db' h')
    {cs : List PMani} {n : Nat} (hr : PReach ⟨db, cs⟩ h n) {m : Nat}
    (hm : db.log.Has m) :
    (∃ cs' n', PReach ⟨db', cs'⟩ h' n') ∧ (∃ N, h' = h ++ N ∧ ∀ r ∈ N, db.log.getMaxSeqNum.getD 0 < r.seq) ∧
      db.log.getMaxSeqNum.getD 0 ≤ db'.log.getMaxSeqNum.getD 0 ∧
      ∀ A B, h' = A ++ B → DBInv db' A B → db'.log.Has m ∨ ∃ a ∈ A, m ≤ a.seq := by
  induction hl with
  | refl => exact ⟨⟨cs, n, hr⟩, ⟨[], by simp, by simp⟩, Nat.le_refl _, fun _ _ _ _ => Or.inl hm⟩
  | @call db1 h1 db2 h2 _ ha ih =>
    obtain ⟨⟨cs1, n1, hr1⟩, ⟨N, hN, hN'⟩, hle, ih⟩ := ih
    obtain ⟨cs2, n2, hr2⟩ := ha.preach hr1
    obtain ⟨A1, B1, e1, hi1, hd1⟩ := hr1.dinv
    obtain ⟨A2, B2, e2, hi2, hd2⟩ := hr2.dinv
    obtain ⟨M, hf, e3⟩ := ha.eff hi1 e1
    have he : A2 ++ B2 = A1 ++ B1 ++ M := by rw [← e2, e3, e1]
    obtain ⟨hmax, hnew⟩ := hi1.inv.max_mono hi2.inv he
    refine ⟨⟨cs2, n2, hr2⟩, ⟨N ++ M, by rw [e3, hN, List.append_assoc], ?_⟩, Nat.le_trans hle hmax, ?_⟩
    · intro r hr'
      rcases List.mem_append.1 hr' with h3 | h3
      · exact hN' r h3
      · exact Nat.lt_of_le_of_lt hle (hnew r h3)
    · intro A B eAB hiAB
      have hB : B = B2 := by rw [hiAB.log.pend, hi2.inv.log.pend]
      have hA : A = A2 := by rw [hB, e2] at eAB; exact (List.append_cancel_right eAB).symm
      subst hA
      exact DInv.has_step hi1 hi2 he hf hd1 (ih A1 B1 e1 hi1.inv)
  | @maint db1 h1 t _ ha ih =>
    obtain ⟨⟨cs1, n1, hr1⟩, hN, hle, ih⟩ := ih
    have hr2 := PReach.maint hr1 ha
    refine ⟨⟨cs1, n1, hr2⟩, hN, hle, ?_⟩
    intro A B eAB hiAB
    obtain ⟨A1, B1, e1, hi1, hd1⟩ := hr1.dinv
    have hB : B = B1 := by rw [hiAB.log.pend, hi1.inv.log.pend]
    have hA : A = A1 := by rw [hB, e1] at eAB; exact (List.append_cancel_right eAB).symm
    subst hA
    exact ih A B1 e1 hi1.inv

/-- A checkpoint call leaves its mark: the highest number so far. -/
theorem checkpoint_has {db db1 : DB K (LsmC c parts hp keep)} {cs : List PMani} {n0 : Nat} {A B : List (Rec K)}
    (hi : PInv ⟨db, cs⟩ n0 A B) {st : Status} {n : Nat} (hs : db.checkpoint = (st, db1, some n)) :
    db1.log.Has n ∧ db.log.getMaxSeqNum = some n := by
  have hl := hi.inv.log
  have h1 : db1.log = db.log.checkpoint.1.sync.2 := (congrArg (fun x => x.2.1.log) hs).symm
  have h2 : db.log.checkpoint.2 = some n := congrArg (fun x => x.2.2) hs
  obtain ⟨fs, f, hf⟩ := hl.split_last
  have hff : f ∈ db.log.files := by rw [hf]; simp
  have hfi : db.log.file? db.log.maxNum = some f := by
    rw [← hl.last_num hf]; exact hl.file?_mem hff
  have hmk : db.log.checkpoint.1.Has n ∧ db.log.getMaxSeqNum = some n := by
    rw [hl.getMax_eq hf]
    unfold LogMgr.checkpoint at h2 ⊢
    simp only [hfi] at h2 ⊢
    have hn : n ∈ f.mem.checkpoint.1.checkpoints ∧ f.mem.maxSeqNum ≠ NIL ∧ f.mem.maxSeqNum = n := by
      unfold MemTable.checkpoint at h2 ⊢
      split at h2
      · cases h2
      · next hne =>
        rw [if_neg hne]
        split at h2
        · next hc => rw [if_pos hc]; cases h2; exact ⟨List.mem_of_getLast? hc, hne, rfl⟩
        · next hc => rw [if_neg hc]; cases h2; exact ⟨by simp, hne, rfl⟩
    refine ⟨⟨{ f with mem := f.mem.checkpoint.1, coldChk := f.coldChk || f.immutable }, ?_, hn.1⟩, by rw [if_pos hn.2.1, hn.2.2]⟩
    unfold LogMgr.setFile
    exact List.mem_map.2 ⟨f, hff, by simp⟩
  refine ⟨?_, hmk.2⟩
  obtain ⟨g, hg, hgn⟩ := hmk.1
  have hi' := hi.mark
  obtain ⟨-, -, φ, h3, h4⟩ := hi'.touched_sync (db := { db with log := db.log.checkpoint.1 }) (Prod.ext rfl rfl)
  have h3 : db.log.checkpoint.1.sync.2.files = db.log.checkpoint.1.files.map φ := h3
  refine ⟨φ g, by rw [h1, h3]; exact List.mem_map_of_mem hg, ?_⟩
  rcases (h4 g hg).2.2.2.2 with h5 | ⟨-, -, h5⟩
  · rw [h5]; exact hgn
  · rw [h5]; exact List.mem_append_left _ hgn

/-- A listed checkpoint without any data in the table file of the partition: an error. -/
theorem CMgr.MInv.snap_hole {t : CMgr K} {A : List (Rec K)} (h : CMgr.MInv c t A) {k : K} {x : Tab K} {e : Mark K}
    (hx : x ∈ t.tab.l0) (hxn : x.status = .normal) (hk : c.hash k % t.tab.parts = x.hashNum)
    (he : e ∈ t.marks x.number) (hz : e.seq = 0) :
    t.snapGet c (t.openSnapshot e.chk) k = .error .snapshotNotFound := by
  have hp : c.hash k % t.tab.parts < t.tab.parts := Nat.mod_lt _ h.inv.pos
  have hxn' := (TMgr.normOf_iff h.inv _ x).2 ⟨hx, hk.symm, hxn⟩
  rw [CMgr.snapGet_eq h.inv hxn' (CMgr.openSnapshot_lv t e.chk), CMgr.snapRead_open h.inv hx, CMgr.openTable_entry (h.sorted x hx) he, if_pos hz]
  rfl

/-! ### what a snapshot returns -/

theorem openSnapshot_ok {db : DB K (LsmC c parts hp keep)} {m : Nat} {sn : Snap K}
    (h : db.openSnapshot m = (.ok, some sn)) : db.check .read = .ok ∧
      ((m ≠ 0 ∧ m ∈ db.getCheckpoints.2 ∧ sn = db.snapAt m) ∨ (m = 0 ∧ sn = db.snapAt (db.log.getMaxSeqNum.getD 0))) := by
  unfold DB.openSnapshot at h
  split at h
  · next hc => exact absurd (congrArg Prod.fst h) hc
  · next hc =>
    refine ⟨by simpa using hc, ?_⟩
    split at h
    · next h0 =>
      split at h
      · next hm =>
        left
        exact ⟨h0, by simpa using hm, (Option.some.inj (congrArg Prod.snd h)).symm⟩
      · cases h
    · next h0 => right; exact ⟨by simpa using h0, (Option.some.inj (congrArg Prod.snd h)).symm⟩

variable {db db' : DB K (LsmC c parts hp keep)} {cs : List PMani} {h h' : List (Rec K)} {n m : Nat} {sn sn' : Snap K}

theorem max_bound {A B : List (Rec K)} (hi : PInv ⟨db, cs⟩ n A B) : ∀ r ∈ A ++ B, r.seq ≤ db.log.getMaxSeqNum.getD 0 ∧ 0 < r.seq ∧ r.seq < NIL := by
  intro r hr
  have hne : A ++ B ≠ [] := List.ne_nil_of_mem hr
  have hm := hi.inv.maxS hne
  have hp := hi.inv.pos r hr
  refine ⟨?_, hp.1, hp.2⟩
  obtain ⟨l, z, hz⟩ : ∃ l z, A ++ B = l ++ [z] := ⟨_, _, (List.dropLast_concat_getLast hne).symm⟩
  have hinc := hi.inv.log.inc
  simp only [] at hm hinc
  rw [hz] at hm hinc hr
  simp at hm
  rw [hm]
  rcases List.mem_append.1 hr with h1 | h1
  · exact Nat.le_of_lt ((List.pairwise_append.1 hinc).2.2 r h1 z (by simp))
  · simp at h1; rw [h1]; exact Nat.le_refl _

/-- A snapshot with a number above everything flushed. -/
theorem snap_unflushed (hr : PReach ⟨db, cs⟩ h n) (ho : db.openSnapshot m = (.ok, some sn))
    (hm : db.log.getLastFlushedSeqNum.getD 0 < (if m = 0 then db.log.getMaxSeqNum.getD 0 else m))
    (ha : Acts db h sn db' h' sn') (hc : db'.check .read = .ok) (k : K) :
    db'.snapGet sn' k = answer (MemTable.upto h (if m = 0 then db.log.getMaxSeqNum.getD 0 else m)) k := by
  obtain ⟨A, B, e, hi, hd⟩ := hr.dinv
  have hl : LogInv db.log A B := hi.inv.log
  have hfl := hl.flushed_le
  obtain ⟨hck, ho⟩ := openSnapshot_ok ho
  generalize hM : (if m = 0 then db.log.getMaxSeqNum.getD 0 else m) = chk at hm
  have hrec : ∃ f ∈ db.log.files, ∃ r ∈ f.mem.bySeq, r.seq = chk ∧ sn = db.snapAt chk ∧ r ∈ A ++ B := by
    obtain ⟨D, hD⟩ := hd.flat
    rcases ho with ⟨h0, h1, h2⟩ | ⟨h0, h2⟩
    · rw [if_neg h0] at hM
      subst hM
      obtain ⟨all, -, h3, -, h4⟩ := getCheckpoints_spec db hck
      rw [h3] at h1
      rcases h4 m (List.mem_of_mem_drop h1) with h5 | h5
      · obtain ⟨⟨f, hf, r, hr, hre, hB⟩, -⟩ := hd.availLog hl h5
        exact ⟨f, hf, r, hr, hre, h2, List.mem_append_right _ hB⟩
      · obtain ⟨r, hr, hre⟩ := hd.availTab h5
        have := hfl r hr
        omega
    · rw [if_pos h0] at hM
      cases hg : db.log.getMaxSeqNum with
      | none => rw [hg] at hM; simp at hM; omega
      | some v =>
        rw [hg] at hM h2
        simp at hM h2
        subst hM
        obtain ⟨f, hf, r, hr, hre⟩ := DInv.newest hi hd hg
        exact ⟨f, hf, r, hr, hre, h2, by rw [hD]; exact List.mem_append_right _ (List.mem_flatMap.2 ⟨f, hf, hr⟩)⟩
  obtain ⟨f, hf, r, hr', hre, hsn, hrAB⟩ := hrec
  have hb := max_bound hi r hrAB
  subst hre hsn
  have v := SView.open hl hf hr' hb.1
  obtain ⟨v', cs', n', hreach'⟩ := ha.view v hr
  obtain ⟨A', B', -, hi'⟩ := hreach'.inv
  subst e
  refine (v'.answer hd hl (by omega) hc hi'.inv.mode k).1 _ (hd.marks.snap_new (fun a ha' => ?_) k) ?_
  · have := hfl a ha'; omega
  · rw [show MemTable.upto A r.seq = A from List.filter_eq_self.2 (fun a ha' => by have := hfl a ha'; simp; omega)]
    exact hi.tab k

/-- The snapshot of the latest state. -/
theorem snap_latest (hr : PReach ⟨db, cs⟩ h n) (ho : db.openSnapshot 0 = (.ok, some sn))
    (ha : Acts db h sn db' h' sn') (hc : db'.check .read = .ok) (k : K) :
    db'.snapGet sn' k = answer h k ∨ db'.snapGet sn' k = (.snapshotNotFound, none) := by
  obtain ⟨A, B, e, hi, hd⟩ := hr.dinv
  have hl : LogInv db.log A B := hi.inv.log
  obtain ⟨hck, ho⟩ := openSnapshot_ok ho
  obtain ⟨h0, -⟩ | ⟨-, hsn⟩ := ho
  · exact absurd rfl h0
  have hall : ∀ r ∈ A ++ B, r.seq ≤ db.log.getMaxSeqNum.getD 0 := fun r hr => (max_bound hi r hr).1
  have hv : SView db sn (db.log.getMaxSeqNum.getD 0) (MemTable.upto (db.log.files.flatMap (·.mem.bySeq)) (db.log.getMaxSeqNum.getD 0))
      (fun k => CMgr.snapGet c (db.table : CMgr K) (CMgr.openSnapshot (db.table : CMgr K) (db.log.getMaxSeqNum.getD 0)) k) ∧
      db.log.getMaxSeqNum.getD 0 ≠ NIL := by
    subst hsn
    cases hg : db.log.getMaxSeqNum with
    | some v =>
      obtain ⟨f, hf, r, hr, hre⟩ := DInv.newest hi hd hg
      have hb := (hl.wf f hf).bound r hr
      subst hre
      refine ⟨SView.open hl hf hr (by rw [hg]; exact Nat.le_refl _), ?_⟩
      simp; omega
    | none =>
      have hnil : A ++ B = [] := by
        by_contra hne
        have := hi.inv.maxS hne
        simp only [] at this
        rw [hg] at this
        obtain ⟨l, z, hz⟩ : ∃ l z, A ++ B = l ++ [z] := ⟨_, _, (List.dropLast_concat_getLast hne).symm⟩
        rw [hz] at this
        simp at this
      have hfn : db.log.getLastFlushedSeqNum.getD 0 = 0 := by
        cases hfs : db.log.files with
        | nil => exact absurd hfs hl.ne
        | cons f fs =>
          have hff : f ∈ db.log.files := by rw [hfs]; simp
          rw [hl.lastFlushedSeq_eq hfs]
          obtain ⟨ps, g, hps⟩ := hl.split_last
          have hgm := hl.getMax_eq hps
          rw [hg] at hgm
          split at hgm
          · cases hgm
          · next hgN =>
            have hgN : g.mem.maxSeqNum = NIL := by simpa using hgN
            have hfN : f.mem.maxSeqNum = NIL := by
              cases ps with
              | nil => rw [hps] at hfs; simp at hfs; rw [← hfs.1]; exact hgN
              | cons p ps =>
                have ho := hl.order
                rw [hps] at ho hfs
                simp at hfs
                have := (List.pairwise_append.1 ho).2.2 f (by rw [← hfs.1]; simp) g (by simp)
                exact absurd hgN (this.max this.ne).1
            have hw := (hl.wf f hff).flushed
            rcases hw with h1 | h1
            · rw [if_pos h1]; rfl
            · omega
      obtain ⟨D, hD⟩ := hd.flat
      rw [hnil] at hD
      have hflat := (List.append_eq_nil_iff.1 hD.symm).2
      refine ⟨⟨rfl, ⟨[], ?_, ?_⟩, rfl, fun k => rfl⟩, by decide⟩
      · show db.log.snapFiles _ _ = some []
        unfold LogMgr.snapFiles LogMgr.openSnapshot
        rw [if_pos ⟨rfl, hfn⟩]
        simp
      · refine ⟨by simp, ?_, by simp, by simp, by simp⟩
        rw [hflat]; rfl
  obtain ⟨v, hN⟩ := hv
  obtain ⟨v', cs', n', hreach'⟩ := ha.view v hr
  obtain ⟨A', B', -, hi'⟩ := hreach'.inv
  have hup : MemTable.upto (A ++ B) (db.log.getMaxSeqNum.getD 0) = A ++ B :=
    List.filter_eq_self.2 (fun a ha' => by have := hall a ha'; simp; omega)
  have hupA : MemTable.upto A (db.log.getMaxSeqNum.getD 0) = A :=
    List.filter_eq_self.2 (fun a ha' => by have := hall a (List.mem_append_left _ ha'); simp; omega)
  have hans := v'.answer hd hl hN hc hi'.inv.mode k
  rw [hup, ← e] at hans
  rcases hd.marks.snap_top (fun a ha' => hall a (List.mem_append_left _ ha')) k with h1 | ⟨h1, -⟩
  · left; exact hans.1 _ h1 (by rw [hupA]; exact hi.tab k)
  · exact hans.2 h1

/-- A checkpoint that is already in the tables, while the log file it was taken in is still there. -/
theorem snap_flushed (hr : PReach ⟨db, cs⟩ h n) (ho : db.openSnapshot m = (.ok, some sn)) (hm : m ≠ 0)
    (hlog : sn.logs ≠ none) (hnorm : ∀ x ∈ (db.table : CMgr K).tab.l0, x.status = .normal)
    (ha : Acts db h sn db' h' sn') (hc : db'.check .read = .ok) (k : K) :
    db'.snapGet sn' k = answer (MemTable.upto h m) k ∨ db'.snapGet sn' k = (.snapshotNotFound, none) := by
  obtain ⟨A, B, e, hi, hd⟩ := hr.dinv
  have hl : LogInv db.log A B := hi.inv.log
  have ho' := ho
  obtain ⟨hck, ho⟩ := openSnapshot_ok ho
  obtain ⟨-, h1, hsn⟩ | ⟨h0, -⟩ := ho
  swap
  · exact absurd h0 hm
  obtain ⟨all, -, h3, -, h4⟩ := getCheckpoints_spec db hck
  rw [h3] at h1
  rcases h4 m (List.mem_of_mem_drop h1) with h5 | h5
  · obtain ⟨⟨f, hf, r, hr', hre, hB⟩, hA⟩ := hd.availLog hl h5
    by_cases hlt : db.log.getLastFlushedSeqNum.getD 0 < m
    · left
      have := snap_unflushed (m := m) hr ho' (by rw [if_neg hm]; exact hlt) ha hc k
      rw [if_neg hm] at this; exact this
    · -- also above everything in the tables
      have hb := max_bound hi r (List.mem_append_right _ hB)
      subst hre hsn
      have v := SView.open hl hf hr' hb.1
      obtain ⟨v', cs', n', hreach'⟩ := ha.view v hr
      obtain ⟨A', B', -, hi'⟩ := hreach'.inv
      subst e
      left
      refine (v'.answer hd hl (by omega) hc hi'.inv.mode k).1 _ (hd.marks.snap_new hA k) ?_
      rw [show MemTable.upto A r.seq = A from List.filter_eq_self.2 (fun a ha' => by have := hA a ha'; simp; omega)]
      exact hi.tab k
  · obtain ⟨r, hrA, hre⟩ := hd.availTab h5
    have hb := max_bound hi r (List.mem_append_left _ hrA)
    obtain ⟨x, hx, hxp, e', he', hchk⟩ := mem_availTab h5 (c.hash k % (db.table : CMgr K).tab.parts) (Nat.mod_lt _ hd.marks.inv.pos)
    subst hsn
    cases hlg : (db.snapAt m).logs with
    | none => exact absurd hlg hlog
    | some fs =>
      have v : SView db (db.snapAt m) m (MemTable.upto (db.log.files.flatMap (·.mem.bySeq)) m)
          (fun k => CMgr.snapGet c (db.table : CMgr K) (CMgr.openSnapshot (db.table : CMgr K) m) k) :=
        ⟨rfl, ⟨fs, hlg, hl.open_some hm (by omega) hlg⟩, rfl, fun k => rfl⟩
      obtain ⟨v', cs', n', hreach'⟩ := ha.view v hr
      obtain ⟨A', B', -, hi'⟩ := hreach'.inv
      subst e hchk
      have hans := v'.answer hd hl (by omega) hc hi'.inv.mode k
      by_cases hz : e'.seq = 0
      · exact hans.2 (hd.marks.snap_hole hx (hnorm x hx) hxp.symm he' hz)
      · obtain ⟨o, ho1, ho2⟩ := hd.marks.snap_old hx (hnorm x hx) hxp.symm he' hz
        exact Or.inl (hans.1 o ho1 ho2)

end Jungle
