/-
  C21: the nearest-key search.  The specification is `Spec.answerRec` (Verif/Spec/KV.lean), and
  `Spec.Side` and `Spec.Closer` (Verif/Spec/Nearest.lean).
-/
import Verif.DB.NearestLemmas
import Verif.Props.Search

set_option linter.unusedSectionVars false

namespace Jungle
open Spec Iter

section
variable {K : Type} [LinearOrder K] [OrderBot K] {c : TCfg K} {parts : Nat} {hp : 0 < parts}

/-- Every key that the index of a log file still lists, though its records have been flushed, is
    still in a table. -/
def Backed (db : DB K (Lsm c parts hp)) : Prop :=
  ∀ f ∈ db.log.files, ∀ e ∈ f.mem.byKey, lastWrite f.pending e.1 = none → TMgr.get c (db.table : TMgr K) e.1 ≠ none

/-- No table above level 0 has lost all its records. -/
def NoEmptyTable (db : DB K (Lsm c parts hp)) : Prop :=
  ∀ l ∈ (db.table : TMgr K).lv, ∀ x ∈ l, x.recs ≠ []

theorem logCands_top {l : LogMgr K} {A B : List (Rec K)} (h : LogInv l A B) (hm : l.cfg.logSectionOnly = false)
    {opt : SOpt} (ho : opt ≠ .equal) (k : K) :
    (l.files.reverse.filterMap (fileNear k opt) = [] ∧ l.getNearest k opt = (.keyNotFound, none)) ∨
      ∃ r, l.getNearest k opt = (.ok, some r) ∧ Top opt (l.files.reverse.filterMap (fileNear k opt)) r := by
  rcases h.getNearest hm ho k with hh | ⟨r, pre, post, h1, h2, h3, h4⟩
  · exact Or.inl hh
  · refine Or.inr ⟨r, h1, by rw [h2]; simp, ?_⟩
    have hinc : Increasing (l.files.filterMap (fileNear k opt)) := by
      refine filterMap_increasing (fun f r hr => ?_) ?_
      · unfold fileNear at hr
        cases hc : MemTable.cursorFor f.mem k opt with
        | none => rw [hc] at hr; cases hr
        | some a => rw [hc] at hr; exact (lastWrite_mem hr).1
      · have := (List.pairwise_append.1 h.inc).2.1
        rw [h.pend] at this
        exact this
    have hdec : (pre ++ r :: post).Pairwise (fun a b => b.seq < a.seq) := by
      rw [← h2, List.filterMap_reverse]
      exact List.pairwise_reverse.2 hinc
    rw [h2]
    intro y hy
    rcases List.mem_append.1 hy with hy | hy
    · refine ⟨fun h' => closer_irrefl (closer_trans h' (h3 y hy)), fun h' => ?_⟩
      have := h3 y hy
      rw [h'] at this
      exact absurd this closer_irrefl
    · rcases List.mem_cons.1 hy with rfl | hy
      · exact ⟨closer_irrefl, fun _ => Nat.le_refl _⟩
      · refine ⟨h4 y hy, fun _ => ?_⟩
        have := (List.pairwise_cons.1 (List.pairwise_append.1 hdec).2.1).1 y hy
        omega

/-- The search answers with the best of the candidates of both sections. -/
theorem nearest_top {db : DB K (Lsm c parts hp)} {A B : List (Rec K)} (hinv : DBInv db A B) (hc : db.closing = false)
    {opt : SOpt} (ho : opt ≠ .equal) (k : K) :
    (db.log.files.reverse.filterMap (fileNear k opt) ++ TMgr.nearAns (db.table : TMgr K) k opt = [] ∧
      db.getNearest k opt = (.keyNotFound, none)) ∨
    ∃ r, db.getNearest k opt = (.ok, some r) ∧
      Top opt (db.log.files.reverse.filterMap (fileNear k opt) ++ TMgr.nearAns (db.table : TMgr K) k opt) r := by
  have hchk : db.check .read = .ok := by unfold DB.check; simp [hc]
  have htab := foldT_spec ho (TMgr.nearAns (db.table : TMgr K) k opt) none
  have hfold : TMgr.getNearest (db.table : TMgr K) k opt =
      (TMgr.nearAns (db.table : TMgr K) k opt).foldl (nearUpdT opt) none := rfl
  rw [← hfold] at htab
  unfold DB.getNearest
  rw [if_neg (by rw [hchk]; simp), if_neg ho]
  simp only [hinv.mode, Bool.false_eq_true, if_false]
  generalize TMgr.getNearest (db.table : TMgr K) k opt = tb at htab ⊢
  rcases logCands_top hinv.log hinv.mode ho k with ⟨h1, h2⟩ | ⟨a, h1, h2⟩
  · rw [h1, h2]
    cases tb with
    | none => exact Or.inl ⟨by rw [((htab.1).1 rfl).2]; rfl, rfl⟩
    | some b => exact Or.inr ⟨b, rfl, by simpa [Top] using htab.2 b rfl⟩
  · rw [h1]
    right
    cases tb with
    | none => exact ⟨a, rfl, by rw [((htab.1).1 rfl).2, List.append_nil]; exact h2⟩
    | some b =>
      have hb : Top opt (TMgr.nearAns (db.table : TMgr K) k opt) b := by simpa [Top] using htab.2 b rfl
      exact ⟨_, rfl, h2.choose ho hb⟩

/-- The best of all records of a key in log and tables is what `KeyQ` says. -/
theorem best_keyQ {t : TMgr K} {B : List (Rec K)} {e : Rec K}
    (h1 : LogQ B none none e ∨ InTables c t none none e)
    (h2 : ∀ y, (LogQ B none none y ∨ InTables c t none none y) → y.key = e.key → y.seq ≤ e.seq) :
    KeyQ c t B none none e := by
  refine ⟨?_, ?_⟩
  · rcases h1 with h1 | h1
    · exact Or.inl h1
    · exact Or.inr ⟨h1, fun y hy hk => h2 y (Or.inr hy) hk⟩
  · rintro y (hy | hy) hk
    · exact h2 y (Or.inl hy) hk
    · exact h2 y (Or.inr hy.1) hk

/-- C21: whatever is in the database, the answer is a record that was written, on the side asked
    for; a search with EQUAL is refused. -/
theorem C21_side {db : DB K (Lsm c parts hp)} {h : List (Rec K)} (hr : Reach db h) (hc : db.closing = false)
    (k : K) (opt : SOpt) :
    (opt = .equal → db.getNearest k opt = (.invalidParameters, none)) ∧
    (opt ≠ .equal → (db.getNearest k opt = (.keyNotFound, none) ∨
      ∃ r ∈ h, db.getNearest k opt = (.ok, some r) ∧ Side opt k r.key)) := by
  refine ⟨fun ho => ?_, fun ho => ?_⟩
  · unfold DB.getNearest DB.check
    simp [hc, ho]
  · obtain ⟨A, B, rfl, hinv, hn⟩ := hr.inv_with (TMgr.newest_pred c parts hp)
    have ht : TMgr.Inv c (db.table : TMgr K) := hinv.table
    rcases nearest_top hinv hc ho k with ⟨-, h2⟩ | ⟨r, h1, h2⟩
    · exact Or.inl h2
    · right
      rcases List.mem_append.1 h2.1 with hm | hm
      · obtain ⟨f, hf, hm⟩ := List.mem_filterMap.1 hm
        have hf := List.mem_reverse.1 hf
        obtain ⟨g1, g2⟩ := fileNear_some (hinv.log.wf f hf) ho hm
        refine ⟨r, List.mem_append_right _ ?_, h1, g2⟩
        rw [hinv.log.pend]
        exact List.mem_flatMap.2 ⟨f, hf, (lastWrite_mem g1).1⟩
      · obtain ⟨g1, g2⟩ := nearAns_in ht ho k r hm
        exact ⟨r, (hn.mem _ r g1).1, h1, g2⟩

/-- C21 (part): if no key has been purged from the tables while a log file still lists it
    (`Backed`), and no table has become empty (`NoEmptyTable`), then: either a record `r` is
    returned, it is the last write to its key (the caller sees whether it is a value or a deletion),
    its key is on the side asked for, and no live key on that side is closer; or the search fails,
    and there is no live key on that side.

    Missing: without the hypotheses it is false, see `C21_purged_violation` and
    `C21_empty_table_violation`. -/
theorem C21_nearest_partial {db : DB K (Lsm c parts hp)} {h : List (Rec K)} (hr : Reach db h)
    (hc : db.closing = false) (hb : Backed db) (he : NoEmptyTable db) (k : K) {opt : SOpt} (ho : opt ≠ .equal) :
    (∃ r, db.getNearest k opt = (.ok, some r) ∧ r ∈ h ∧ Side opt k r.key ∧
      (r.isIns = true → answerRec h r.key = (.ok, some r)) ∧
      (r.isIns = false → answerRec h r.key = (.keyNotFound, none)) ∧
      ∀ e, answerRec h e.key = (.ok, some e) → Side opt k e.key → ¬ Closer opt e.key r.key) ∨
    (db.getNearest k opt = (.keyNotFound, none) ∧
      ∀ e, answerRec h e.key = (.ok, some e) → ¬ Side opt k e.key) := by
  have hside := (C21_side hr hc k opt).2 ho
  obtain ⟨A, B, rfl, hinv, hn⟩ := hr.inv_with (TMgr.newest_pred c parts hp)
  have ht : TMgr.Inv c (db.table : TMgr K) := hinv.table
  have hincB : Increasing B := (List.pairwise_append.1 hinv.log.inc).2.1
  have hcov := nearAns_covers ht he ho k
  have hra : ∀ k, InRange (none : Option K) none k := fun k => ⟨fun _ h => (by cases h), fun _ h => (by cases h)⟩
  -- every record in log or tables is met by a candidate
  have hall : ∀ y, (LogQ B none none y ∨ InTables c (db.table : TMgr K) none none y) → Side opt k y.key →
      ∃ z ∈ db.log.files.reverse.filterMap (fileNear k opt) ++ TMgr.nearAns (db.table : TMgr K) k opt,
        Closer opt z.key y.key ∨ z = y := by
    rintro y (hy | hy) hs
    · have hyB := (lastWrite_mem hy.1).1
      have hyc := (lastWrite_mem hy.1).2.2
      rw [hinv.log.pend] at hyB
      obtain ⟨f, hf, hyf⟩ := List.mem_flatMap.1 hyB
      have hw := hinv.log.wf f hf
      -- the file has the key of `y`
      have hyk : ∃ e0 ∈ f.mem.byKey, e0.1 = y.key := by
        have hk : y ∈ keyRecs f.mem.bySeq y.key := mem_keyRecs.2 ⟨(List.mem_filter.1 hyf).1, hyc, rfl⟩
        have hidx : (f.mem.byKey.find? y.key).getD [] = keyRecs f.mem.bySeq y.key := hw.idx y.key
        rw [← hidx] at hk
        cases hfi : f.mem.byKey.find? y.key with
        | none => rw [hfi] at hk; cases hk
        | some v => exact ⟨(y.key, v), SMap.find?_some_mem hfi, rfl⟩
      have hly : lastWrite f.pending y.key = some y := by
        have hsub : ∀ x ∈ f.pending, x ∈ B := fun x hx => by
          rw [hinv.log.pend]; exact List.mem_flatMap.2 ⟨f, hf, hx⟩
        cases hl : lastWrite f.pending y.key with
        | none =>
          have := lastWrite_none.1 hl y hyf rfl
          rw [hyc] at this; cases this
        | some b =>
          obtain ⟨b1, b2, b3⟩ := lastWrite_mem hl
          have h3 := lastWrite_max hincB hy.1 (hsub b b1) b2 b3
          have hpi : Increasing f.pending := by
            obtain ⟨u, v, huv⟩ := List.append_of_mem hf
            have := hincB
            rw [hinv.log.pend, huv, List.flatMap_append, List.flatMap_cons] at this
            exact (List.pairwise_append.1 (List.pairwise_append.1 this).2.1).1
          have h4 := lastWrite_max hpi hl hyf rfl hyc
          rw [seq_inj hincB (hsub b b1) (lastWrite_mem hy.1).1 (by omega)]
      obtain ⟨e0, he0, he0k⟩ := hyk
      have hcs := cursor_spec hw.keys ho k
      cases hcu : MemTable.cursorFor f.mem k opt with
      | none => exact absurd (by rw [he0k]; exact hs) (hcs.2 hcu e0 he0)
      | some a =>
        obtain ⟨a1, a2, a3⟩ := hcs.1 a hcu
        have hnc := a3 e0 he0 (by rw [he0k]; exact hs)
        rw [he0k] at hnc
        cases hla : lastWrite f.pending a.1 with
        | some z =>
          have hzk := (lastWrite_mem hla).2.1
          refine ⟨z, List.mem_append_left _ (List.mem_filterMap.2 ⟨f, List.mem_reverse.2 hf, ?_⟩), ?_⟩
          · unfold fileNear; rw [hcu]; exact hla
          · rw [hzk]
            by_cases hcl : Closer opt a.1 y.key
            · exact Or.inl hcl
            · right
              rw [closer_tri ho hcl hnc, hly] at hla
              exact (Option.some.inj hla).symm
        | none =>
          have hcl : Closer opt a.1 y.key := by
            by_contra hcl
            rw [closer_tri ho hcl hnc, hly] at hla
            cases hla
          have hst := hb f hf a a1 hla
          have hgh := TMgr.get_eq_head ht a.1
          rw [hgh] at hst
          cases hq : TMgr.stack c (db.table : TMgr K) a.1 with
          | nil => rw [hq] at hst; exact absurd rfl hst
          | cons w ws =>
            have hwm : w ∈ TMgr.stack c (db.table : TMgr K) a.1 := by rw [hq]; simp
            have hwk := (hn.mem _ w hwm).2.1
            obtain ⟨z, hz, h'⟩ := hcov w (by rw [hwk]; exact hwm) (by rw [hwk]; exact a2)
            refine ⟨z, List.mem_append_right _ hz, Or.inl ?_⟩
            rcases h' with h' | rfl
            · rw [hwk] at h'; exact closer_trans h' hcl
            · rw [hwk]; exact hcl
    · obtain ⟨z, hz, h'⟩ := hcov y hy.1 hs
      exact ⟨z, List.mem_append_right _ hz, h'⟩
  have hlive : ∀ e, answerRec (A ++ B) e.key = (.ok, some e) → KeyQ c (db.table : TMgr K) B none none e := by
    intro e he
    exact ((keyQ_live hinv.log ht hn hinv.old none none e).2 ⟨he, hra _⟩).1
  have hkq : ∀ e, KeyQ c (db.table : TMgr K) B none none e →
      LogQ B none none e ∨ InTables c (db.table : TMgr K) none none e := by
    rintro e ⟨h1 | h1, -⟩
    · exact Or.inl h1
    · exact Or.inr h1.1
  rcases nearest_top hinv hc ho k with ⟨h1, h2⟩ | ⟨r, h1, h2⟩
  · right
    refine ⟨h2, fun e he' hs => ?_⟩
    obtain ⟨z, hz, -⟩ := hall e (hkq e (hlive e he')) hs
    rw [h1] at hz
    cases hz
  · left
    obtain ⟨hrm, hrs⟩ : r ∈ A ++ B ∧ Side opt k r.key := by
      rcases hside with h | ⟨r', h3, h4, h5⟩
      · rw [h1] at h; cases h
      · rw [h1] at h4; cases h4; exact ⟨h3, h5⟩
    -- `r` is the newest of its key among all
    have hbest : ∀ y, (LogQ B none none y ∨ InTables c (db.table : TMgr K) none none y) → y.key = r.key →
        y.seq ≤ r.seq := by
      intro y hy hk
      obtain ⟨z, hz, h'⟩ := hall y hy (by rw [hk]; exact hrs)
      rcases h' with h' | rfl
      · rw [hk] at h'
        exact absurd h' (h2.2 z hz).1
      · exact (h2.2 z hz).2 hk
    have hin : LogQ B none none r ∨ InTables c (db.table : TMgr K) none none r := by
      rcases List.mem_append.1 h2.1 with hm | hm
      · left
        obtain ⟨f, hf, hm⟩ := List.mem_filterMap.1 hm
        have hf := List.mem_reverse.1 hf
        obtain ⟨g1, -⟩ := fileNear_some (hinv.log.wf f hf) ho hm
        have hrB : r ∈ B := by
          rw [hinv.log.pend]
          exact List.mem_flatMap.2 ⟨f, hf, (lastWrite_mem g1).1⟩
        cases hl : lastWrite B r.key with
        | none =>
          have := lastWrite_none.1 hl r hrB rfl
          rw [(lastWrite_mem g1).2.2] at this
          cases this
        | some b =>
          have hbk := (lastWrite_mem hl).2.1
          have h3 := hbest b (Or.inl ⟨by rw [hbk]; exact hl, hra _⟩) hbk
          have h4 := lastWrite_max hincB hl hrB rfl (lastWrite_mem g1).2.2
          have : r = b := seq_inj hincB hrB (lastWrite_mem hl).1 (by omega)
          exact ⟨by rw [hl, this], hra _⟩
      · exact Or.inr ⟨(nearAns_in ht ho k r hm).1, hra _⟩
    have hq := best_keyQ hin hbest
    refine ⟨r, h1, hrm, hrs, fun hi => ?_, fun hi => ?_, fun e he' hs hcl => ?_⟩
    · exact ((keyQ_live hinv.log ht hn hinv.old none none r).1 ⟨hq, hi⟩).1
    · cases hl : lastWrite (A ++ B) r.key with
      | none => unfold answerRec; rw [hl]
      | some e =>
        cases hei : e.isIns with
        | false => unfold answerRec; rw [hl]; simp [hei]
        | true =>
          exfalso
          have hek := (lastWrite_mem hl).2.1
          have hea : answerRec (A ++ B) e.key = (.ok, some e) := by
            unfold answerRec; rw [hek, hl]; simp [hei]
          have hqe := hlive e hea
          have h3 := hbest e (hkq e hqe) hek
          have h4 : r.seq ≤ e.seq := by
            refine lastWrite_max hinv.log.inc hl hrm rfl ?_
            rcases hin with h | h
            · exact (lastWrite_mem h.1).2.2
            · exact (hn.mem _ r h.1).2.2
          have : r = e := seq_inj hinv.log.inc hrm (lastWrite_mem hl).1 (by omega)
          rw [this, hei] at hi
          cases hi
    · obtain ⟨z, hz, h'⟩ := hall e (hkq e (hlive e he')) hs
      rcases h' with h' | rfl
      · exact (h2.2 z hz).1 (closer_trans h' hcl)
      · exact (h2.2 z hz).1 hcl

end

/-! ### examples and counterexamples -/
namespace NearestEx
open IterEx

/-- Two tables in level 1, one record in level 0, two log files; 12 is deleted, 10 overwritten. -/
theorem backed1 : Backed SearchEx.s1.1 := by unfold Backed; decide +kernel
theorem full1 : NoEmptyTable SearchEx.s1.1 := by unfold NoEmptyTable; decide +kernel

/-- The answers in this database: from the log, from level 1, from level 0, a deletion, nothing. -/
example : SearchEx.s1.1.getNearest 10 .greater = (.ok, some (insr 8 11 7)) ∧
    SearchEx.s1.1.getNearest 13 .greaterOrEqual = (.ok, some (insr 4 15 4)) ∧
    SearchEx.s1.1.getNearest 11 .smaller = (.ok, some (insr 6 10 6)) ∧
    SearchEx.s1.1.getNearest 14 .smallerOrEqual = (.ok, some { seq := 7, type := .deletion, key := 12 }) ∧
    SearchEx.s1.1.getNearest 21 .greater = (.keyNotFound, none) := by decide +kernel

/-- The theorem at 10 and GREATER: 11 is live, and no live key is closer. -/
example : answerRec SearchEx.s1.2 11 = (.ok, some (insr 8 11 7)) ∧
    ∀ e, answerRec SearchEx.s1.2 e.key = (.ok, some e) → 10 < e.key → ¬ e.key < 11 := by
  have hr : SearchEx.s1.1.getNearest 10 .greater = (.ok, some (insr 8 11 7)) := by decide +kernel
  rcases C21_nearest_partial SearchEx.r1 rfl backed1 full1 10 (opt := .greater) (by decide) with
    ⟨r, h1, -, -, h2, -, h3⟩ | ⟨h1, -⟩
  · rw [hr] at h1
    cases h1
    exact ⟨h2 rfl, h3⟩
  · rw [hr] at h1; cases h1

/-- 6 is written and deleted, flushed and compacted away; then 7 is written. -/
def s2 := (start [.put 1 1, .put 6 1, .sync, .flush, .l0Begin 0, .l0End 0, .rm 6, .sync, .flush, .l0Begin 0, .l0End 0,
  .put 7 2]).get (by decide +kernel)
theorem r2 : Reach s2.1 s2.2 := Cmd.start_reach plain (Option.some_get _).symm

/-- Three tables of a level; then the only key of the middle one is deleted and compacted away. -/
def s3 := (Cmd.run (SearchEx.s2, SearchEx.s2a.2) [.rm 12, .sync, .flush, .l0Begin 0, .l0End 0]).get (by decide +kernel)
theorem r3 : Reach s3.1 s3.2 := Cmd.run_reach (s := (SearchEx.s2, SearchEx.s2a.2)) SearchEx.r2 (Option.some_get _).symm

end NearestEx

open NearestEx in
/-- C21 is false if a deleted key has been compacted away while the log file it was written to is
    still in use: the search stops at that key and finds nothing, though 7 is live. -/
theorem C21_purged_violation : ∃ (db : DB Nat (Lsm IterEx.c 1 (by decide))) (h : List (Rec Nat)),
    Reach db h ∧ db.closing = false ∧ NoEmptyTable db ∧ answer h 7 = (.ok, some [2]) ∧ db.get 7 = (.ok, some [2]) ∧
    db.getNearest 5 .greaterOrEqual = (.keyNotFound, none) :=
  ⟨s2.1, s2.2, r2, rfl, by unfold NoEmptyTable; decide +kernel, by decide +kernel, by decide +kernel, by decide +kernel⟩

open NearestEx in
/-- C21 is false if the next table of a level has become empty: the search does not look further,
    though 13 is live. -/
theorem C21_empty_table_violation : ∃ (db : DB Nat (Lsm IterEx.c 1 (by decide))) (h : List (Rec Nat)),
    Reach db h ∧ db.closing = false ∧ answer h 13 = (.ok, some [3]) ∧ db.get 13 = (.ok, some [3]) ∧
    (∀ f ∈ db.log.files, f.pending = []) ∧
    db.getNearest 11 .greater = (.keyNotFound, none) :=
  ⟨s3.1, s3.2, r3, rfl, by decide +kernel, by decide +kernel, by decide +kernel, by decide +kernel⟩

end Jungle
