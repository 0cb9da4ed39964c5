/-
  Iterators of a handle by sequence number: C20.

  `Spec.SeqScan` says which lists are acceptable; `Spec.moves` says what moving in a list means.
  `sqAll` and `sqRun` (`Verif/Iter/SeqItr.lean`) are the loops of a client.
-/
import Mathlib.Order.Nat
import Verif.DB.Kept
import Verif.DB.Script
import Verif.Iter.SeqItrLemmas
import Verif.Props.Log

set_option linter.unusedSectionVars false

namespace Jungle
open Spec Iter

section
variable {K : Type} [LinearOrder K] [OrderBot K] {c : TCfg K} {parts : Nat} {hp : 0 < parts}

/-- A bound for `initSN` that this file covers: none, or the number of a written record. -/
def SeqBound (h : List (Rec K)) (n : Nat) : Prop := n = NIL ∨ ∃ r ∈ h, r.seq = n

/-- What is known about a new iterator of a reachable handle. -/
theorem seqItr_open {db : DB K (Lsm c parts hp)} {h : List (Rec K)} (hr : Reach db h)
    (hc : db.closing = false) (hu : db.log.cfg.useSequenceIndex = true) {lo hi : Nat}
    (hlo : SeqBound h lo) (hhi : SeqBound h hi) :
    ∃ it Q L, db.seqItr lo hi = (.ok, some it) ∧ SeqScan h db.getLastFlushedSeqNum lo hi L ∧
      SLists Q L ∧ SeqAt lo hi Q L 0 .fwd it := by
  have hkept := hr.kept
  obtain ⟨A, B, rfl, hinv, hn⟩ := hr.inv_with (TMgr.newest_pred c parts hp)
  have ht : TMgr.Inv c (db.table : TMgr K) := hinv.table
  have hH : ∀ k, ∀ r ∈ TMgr.stack c (db.table : TMgr K) k, r ∈ A ++ B := fun k r hr => (hn.mem k r hr).1
  have h0 : hi ≠ 0 := by
    rcases hhi with h1 | ⟨r, hr, h1⟩
    · rw [h1]; decide
    · have := hinv.pos r hr; omega
  have ho := seq_opened hinv.log ht hinv.log.inc hkept hH hlo hhi h0
  have hq := slogQ_spec hinv.log hlo hhi
  have hQ : ∀ e, SeqQ c db.log (db.table : TMgr K) lo hi e → e ∈ A ++ B ∧ NumIn lo hi e.seq := by
    rintro e (he | he)
    · obtain ⟨⟨f, hf, h1⟩, h2⟩ := hq.2.1 e he
      exact ⟨hkept f hf e h1, h2⟩
    · exact ⟨hH _ e he.1, he.2⟩
  obtain ⟨L, hL⟩ := slists_exists hinv.log.inc (fun e he => (hQ e he).1)
  refine ⟨seqInit db.log (db.table : TMgr K) lo hi, _, L, ?_, ?_, hL, seqInit_at ho hL⟩
  · unfold DB.seqItr DB.check
    simp [hc, hu]
  · refine ⟨hL.sorted, fun e he => hQ e ((hL.mem e).1 he), fun r hrm hnf hin => ?_, fun r hrl hin => ?_⟩
    · have hB : r ∈ B := by
        rcases List.mem_append.1 hrm with hA | hB
        · exfalso
          obtain ⟨f, fs, hf⟩ := List.exists_cons_of_ne_nil hinv.log.ne
          have h1 := hinv.log.mark f fs hf r hA
          have h2 := hinv.log.lastFlushed_eq hf
          rw [if_neg h1.1] at h2
          have := hnf _ h2
          omega
        · exact hB
      exact (hL.mem r).2 (Or.inl (hq.2.2 r hB hin))
    · refine (hL.mem r).2 ?_
      have hlive := (keyQ_live hinv.log ht hn hinv.old none none r).2
        ⟨hrl, fun a ha => (by cases ha), fun a ha => (by cases ha)⟩
      rcases hlive.1.1 with h1 | h1
      · exact Or.inl (hq.2.2 r (lastWrite_mem h1.1).1 hin)
      · exact Or.inr ⟨h1.1.1, hin⟩

theorem sqAll_first {Q : Rec K → Prop} {L : List (Rec K)} {lo hi : Nat} {it : SeqIt K} (hl : SLists Q L)
    (hf : SeqAt lo hi Q L 0 .fwd it) (n : Nat) (hn : L.length ≤ n) : sqAll .fwd n it = L := by
  cases hL0 : L with
  | nil =>
    cases n with
    | zero => rfl
    | succ n => unfold sqAll; rw [hf.empty hL0]
  | cons a l =>
    have h0 : L[0]? = some a := by rw [hL0]; rfl
    rw [sqAll_fwd hl n 0 h0 (hf.rep a h0) trivial (by omega), List.drop_zero, hL0]

theorem sqAll_last {Q : Rec K → Prop} {L : List (Rec K)} {lo hi : Nat} {it : SeqIt K} (hl : SLists Q L)
    (hf : SeqAt lo hi Q L (L.length - 1) .bwd it) (n : Nat) (hn : L.length ≤ n) :
    sqAll .bwd n it = L.reverse := by
  by_cases hL0 : L = []
  · subst hL0
    cases n with
    | zero => rfl
    | succ n => unfold sqAll; rw [hf.empty rfl]; rfl
  · have hpos := List.length_pos_iff.2 hL0
    obtain ⟨e, he⟩ : ∃ e, L[L.length - 1]? = some e := ⟨L[L.length - 1], by simp⟩
    rw [sqAll_bwd hl n _ he (hf.rep e he) trivial (by omega)]
    congr 1
    rw [List.take_of_length_le (by omega)]

/-- C20: iterating by sequence number over everything, or between the numbers of two written
    records, returns an ascending list without repetition that has every record that is not flushed
    and every current record; going backward from the end returns the same list reversed.  For
    bounds that are not the number of a record see `C20_violation_range`. -/
theorem C20_iteration_partial {db : DB K (Lsm c parts hp)} {h : List (Rec K)} (hr : Reach db h)
    (hc : db.closing = false) (hu : db.log.cfg.useSequenceIndex = true) {lo hi : Nat}
    (hlo : SeqBound h lo) (hhi : SeqBound h hi) :
    ∃ it L, db.seqItr lo hi = (.ok, some it) ∧ SeqScan h db.getLastFlushedSeqNum lo hi L ∧
      (∀ n, L.length ≤ n → sqAll .fwd n it = L) ∧
      ∃ it', sqSeek .last it = (.ok, it') ∧
        (∀ n, L.length ≤ n → sqAll .bwd n it' = L.reverse) ∧
        ∃ it'', sqSeek .first it' = (.ok, it'') ∧ ∀ n, L.length ≤ n → sqAll .fwd n it'' = L := by
  obtain ⟨it, Q, L, h1, h2, hl, hf⟩ := seqItr_open hr hc hu hlo hhi
  obtain ⟨it', g1, g2⟩ := sqSeek_last hf.opn hl
  obtain ⟨it'', g3, g4⟩ := sqSeek_first g2.opn hl
  exact ⟨it, L, h1, h2, sqAll_first hl hf, it', g1, sqAll_last hl g2, it'', g3, sqAll_first hl g4⟩

/-- C20: one change of direction is moving in that list. -/
theorem C20_one_turn_partial {db : DB K (Lsm c parts hp)} {h : List (Rec K)} (hr : Reach db h)
    (hc : db.closing = false) (hu : db.log.cfg.useSequenceIndex = true) {lo hi : Nat}
    (hlo : SeqBound h lo) (hhi : SeqBound h hi) :
    ∃ it L, db.seqItr lo hi = (.ok, some it) ∧ SeqScan h db.getLastFlushedSeqNum lo hi L ∧
      (L ≠ [] → ∀ n m, sqGet it = (.ok, L[0]?) ∧
        sqRun it (List.replicate n true ++ List.replicate m false) =
          moves L 0 (List.replicate n true ++ List.replicate m false)) := by
  obtain ⟨it, Q, L, h1, h2, hl, hf⟩ := seqItr_open hr hc hu hlo hhi
  refine ⟨it, L, h1, h2, fun hne n m => ?_⟩
  have hpos := List.length_pos_iff.2 hne
  obtain ⟨a, ha⟩ : ∃ e, L[0]? = some e := ⟨L[0], by simp [hpos]⟩
  exact ⟨by rw [ha]; exact sqGet_rep (hf.rep a ha),
    sqRun_spec hl _ ha (hf.rep a ha) (Mode.allows_fresh true n m)⟩

/-- C20: `seekSN(k)` (GREATER), for a `k` between the bounds, goes to the first record of that list
    that is not below `k`, if there is one, and reading on returns the records from there.  For
    SMALLER see `C20_violation_seek_smaller`. -/
theorem C20_seek_greater_partial {db : DB K (Lsm c parts hp)} {h : List (Rec K)} (hr : Reach db h)
    (hc : db.closing = false) (hu : db.log.cfg.useSequenceIndex = true) {lo hi : Nat}
    (hlo : SeqBound h lo) (hhi : SeqBound h hi) {k : Nat} (hk : NumIn lo hi k) :
    ∃ it L, db.seqItr lo hi = (.ok, some it) ∧ SeqScan h db.getLastFlushedSeqNum lo hi L ∧
      ∀ (i : Nat) (e : Rec K), L[i]? = some e → k ≤ e.seq → (∀ y ∈ L, k ≤ y.seq → e.seq ≤ y.seq) →
        ∃ it', sqSeek (.ge k) it = (.ok, it') ∧ sqGet it' = (.ok, some e) ∧
          ∀ n, L.length ≤ i + n → sqAll .fwd n it' = L.drop i := by
  obtain ⟨it, Q, L, h1, h2, hl, hf⟩ := seqItr_open hr hc hu hlo hhi
  refine ⟨it, L, h1, h2, fun i e he hke hmin => ?_⟩
  obtain ⟨it', g1, g2, _⟩ := sqSeek_ge hf.opn hl hk he hke hmin
  exact ⟨it', g1, sqGet_rep g2, fun n hn => sqAll_fwd hl n i he g2 rfl hn⟩

end

/-! ### Examples and counterexamples -/

namespace SeqEx

def c : TCfg Nat := { hash := fun k => k }
def start (xs : List (Cmd Nat)) := Cmd.start c 1 (by decide) {} xs
theorem plain : Cfg.Plain {} := ⟨rfl, rfl, rfl, by decide⟩
def insr (s k : Nat) (v : UInt8) : Rec Nat := { seq := s, type := .insertion, key := k, val := [v] }

/-- Two log files over a table: an overwritten key, a deleted key, a key only in the table. -/
def p1 : List (Cmd Nat) := [.put 1 10, .put 4 40, .put 7 70, .sync, .flush, .l0Begin 0, .l0End 0,
  .put 4 41, .rm 7, .put 2 20 true, .put 9 90]
def s1 := (start p1).get (by decide +kernel)
theorem r1 : Reach s1.1 s1.2 := Cmd.start_reach plain (Option.some_get _).symm

theorem hist1 : s1.2 = [insr 1 1 10, insr 2 4 40, insr 3 7 70, insr 4 4 41,
    { seq := 5, type := .deletion, key := 7 }, insr 6 2 20, insr 7 9 90] := by decide +kernel

/-- The whole history has the records of the log, and record 1 of the table. -/
example : ∃ it L, s1.1.seqItr NIL NIL = (.ok, some it) ∧ sqAll .fwd 10 it = L ∧
    ({ seq := 5, type := .deletion, key := 7 } : Rec Nat) ∈ L ∧ insr 1 1 10 ∈ L ∧ insr 4 4 41 ∈ L := by
  obtain ⟨it, L, h1, h2, h3, _⟩ := C20_iteration_partial r1 rfl rfl (Or.inl rfl) (Or.inl rfl)
  have hfl : s1.1.getLastFlushedSeqNum = some 3 := by decide +kernel
  have hlen : L.length ≤ 7 := by
    have hsub : L.Subperm s1.2 :=
      List.subperm_of_subset (h2.sorted.imp (fun hab he => by rw [he] at hab; exact lt_irrefl _ hab))
        (fun e he => (h2.sound e he).1)
    have := hsub.length_le
    rw [hist1] at this
    exact this
  have hn : ∀ n, NumIn NIL NIL n := fun n => ⟨fun h => absurd rfl h, fun h => absurd rfl h⟩
  refine ⟨it, L, h1, h3 10 (by omega), ?_, ?_, ?_⟩
  · refine h2.recent _ (by rw [hist1]; decide) ?_ (hn _)
    rw [hfl]; intro m hm; cases hm; decide
  · exact h2.live _ (by rw [hist1]; decide) (hn _)
  · exact h2.live _ (by rw [hist1]; decide) (hn _)

/-- What the model computes. -/
example : (sqAll .fwd 10 (seqInit s1.1.log (s1.1.table : TMgr Nat) NIL NIL)).map (·.seq) = [1, 2, 3, 4, 5, 6, 7] := by
  decide +kernel

/-- A range, and a seek in it. -/
example : ∃ it L, s1.1.seqItr 4 6 = (.ok, some it) ∧ SeqScan s1.2 s1.1.getLastFlushedSeqNum 4 6 L ∧
    ∀ (i : Nat) (e : Rec Nat), L[i]? = some e → 5 ≤ e.seq → (∀ y ∈ L, 5 ≤ y.seq → e.seq ≤ y.seq) →
        ∃ it', sqSeek (.ge 5) it = (.ok, it') ∧ sqGet it' = (.ok, some e) ∧
          ∀ n, L.length ≤ i + n → sqAll .fwd n it' = L.drop i :=
  C20_seek_greater_partial r1 rfl rfl (Or.inr ⟨insr 4 4 41, by rw [hist1]; decide, rfl⟩)
    (Or.inr ⟨insr 6 2 20, by rw [hist1]; decide, rfl⟩) ⟨fun _ => by decide, fun _ => by decide⟩

example : ∃ it, s1.1.seqItr 4 6 = (.ok, some it) ∧
    (sqRun it [true, true, false]).map (fun x => x.2.map (·.seq)) = [some 5, some 6, some 5] :=
  ⟨seqInit s1.1.log (s1.1.table : TMgr Nat) 4 6, rfl, by decide +kernel⟩

def s2 := (start [.put 1 10, .put 2 20, .put 3 30]).get (by decide +kernel)
theorem r2 : Reach s2.1 s2.2 := Cmd.start_reach plain (Option.some_get _).symm
def s3 := (start [.putSN 3 1 10, .putSN 10 2 20]).get (by decide +kernel)
theorem r3 : Reach s3.1 s3.2 := Cmd.start_reach plain (Option.some_get _).symm
def s4 := (start [.put 1 10, .putSN 10 2 20 true]).get (by decide +kernel)
theorem r4 : Reach s4.1 s4.2 := Cmd.start_reach plain (Option.some_get _).symm

end SeqEx

/-- C20 is false of `seekSN(k, SMALLER)`: with records 1, 2, 3 in the log, seeking 2 goes to 3. -/
theorem C20_violation_seek_smaller :
    ∃ (db : DB Nat (Lsm SeqEx.c 1 (by decide))) (h : List (Rec Nat)) (it it' : SeqIt Nat),
      Reach db h ∧ db.closing = false ∧ db.seqItr NIL NIL = (.ok, some it) ∧
      h.map (·.seq) = [1, 2, 3] ∧ sqSeek (.le 2) it = (.ok, it') ∧ (sqGet it').2.map (·.seq) = some 3 :=
  ⟨SeqEx.s2.1, SeqEx.s2.2, seqInit SeqEx.s2.1.log (SeqEx.s2.1.table : TMgr Nat) NIL NIL,
    (sqSeek (.le 2) (seqInit SeqEx.s2.1.log (SeqEx.s2.1.table : TMgr Nat) NIL NIL)).2,
    SeqEx.r2, rfl, rfl, by decide +kernel, Prod.ext (by decide +kernel) rfl, by decide +kernel⟩

/-- `seekSN(k)` can leave the range: the range ends at 2, seeking 3 shows record 3. -/
theorem C20_violation_seek_beyond :
    ∃ (db : DB Nat (Lsm SeqEx.c 1 (by decide))) (h : List (Rec Nat)) (it it' : SeqIt Nat),
      Reach db h ∧ db.closing = false ∧ db.seqItr NIL 2 = (.ok, some it) ∧
      sqSeek (.ge 3) it = (.ok, it') ∧ (sqGet it').2.map (·.seq) = some 3 :=
  ⟨SeqEx.s2.1, SeqEx.s2.2, seqInit SeqEx.s2.1.log (SeqEx.s2.1.table : TMgr Nat) NIL 2,
    (sqSeek (.ge 3) (seqInit SeqEx.s2.1.log (SeqEx.s2.1.table : TMgr Nat) NIL 2)).2,
    SeqEx.r2, rfl, rfl, Prod.ext (by decide +kernel) rfl, by decide +kernel⟩

/-- Bounds that are not the number of a record: with records 3 and 10 in one log file the range from
    5 to 6 shows record 10. -/
theorem C20_violation_range :
    ∃ (db : DB Nat (Lsm SeqEx.c 1 (by decide))) (h : List (Rec Nat)) (it : SeqIt Nat),
      Reach db h ∧ db.closing = false ∧ db.seqItr 5 6 = (.ok, some it) ∧
      h.map (·.seq) = [3, 10] ∧ (sqAll .fwd 10 it).map (·.seq) = [10] :=
  ⟨SeqEx.s3.1, SeqEx.s3.2, seqInit SeqEx.s3.1.log (SeqEx.s3.1.table : TMgr Nat) 5 6,
    SeqEx.r3, rfl, rfl, by decide +kernel, by decide +kernel⟩

/-- … and with record 1 in one log file and 10 in the next, the range from 5 to 6 shows record 1. -/
theorem C20_violation_range_below :
    ∃ (db : DB Nat (Lsm SeqEx.c 1 (by decide))) (h : List (Rec Nat)) (it : SeqIt Nat),
      Reach db h ∧ db.closing = false ∧ db.seqItr 5 6 = (.ok, some it) ∧
      h.map (·.seq) = [1, 10] ∧ (sqAll .fwd 10 it).map (·.seq) = [1] :=
  ⟨SeqEx.s4.1, SeqEx.s4.2, seqInit SeqEx.s4.1.log (SeqEx.s4.1.table : TMgr Nat) 5 6,
    SeqEx.r4, rfl, rfl, by decide +kernel, by decide +kernel⟩

end Jungle
