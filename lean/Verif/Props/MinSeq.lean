/-
  C74: the smallest number of the log section bounds the records that are not flushed, is the one after
  the last flushed number, and is refused only when everything is flushed.
-/
import Verif.Log.MinSeq
import Verif.Props.Log
import Verif.Props.Search

set_option linter.unusedSectionVars false

namespace Jungle
open Spec Iter
variable {K : Type} [LinearOrder K] {S : TableSys K}

/-- C74: no record that is waiting to be flushed has a number below the answer; every record up to the last
    flushed number is below it, and the answer is that number plus one. -/
theorem C74_bound {db : DB K S} {h : List (Rec K)} (hr : Reach db h) {m : Nat} (hm : db.getMinSeqNum = some m) :
    (∀ r ∈ h, (∀ n, db.getLastFlushedSeqNum = some n → n < r.seq) → m ≤ r.seq) ∧
    (∀ n, db.getLastFlushedSeqNum = some n → m = n + 1) := by
  obtain ⟨A, B, rfl, hi⟩ := hr.inv
  obtain ⟨f, fs, hf⟩ := List.exists_cons_of_ne_nil hi.log.ne
  have hfl : db.getLastFlushedSeqNum = _ := hi.log.lastFlushed_eq hf
  obtain ⟨-, s2, s3⟩ := hi.log.getMin_spec hf
  constructor
  · intro r hr hn
    rcases List.mem_append.1 hr with hA | hB
    · obtain ⟨h1, h2⟩ := hi.log.mark f fs hf r hA
      rw [if_neg h1] at hfl
      have := hn _ hfl
      omega
    · exact s2 m hm r hB
  · intro n hn
    rw [hfl] at hn
    split at hn
    · cases hn
    · next hne => rw [← Option.some.inj hn]; exact s3 m hm hne

/-- C74: LOG_NOT_EXIST means that every record ever written is flushed. -/
theorem C74_none {db : DB K S} {h : List (Rec K)} (hr : Reach db h) (hm : db.getMinSeqNum = none) :
    ∀ r ∈ h, ∃ n, db.getLastFlushedSeqNum = some n ∧ r.seq ≤ n := by
  obtain ⟨A, B, rfl, hi⟩ := hr.inv
  obtain ⟨f, fs, hf⟩ := List.exists_cons_of_ne_nil hi.log.ne
  have hfl : db.getLastFlushedSeqNum = _ := hi.log.lastFlushed_eq hf
  obtain ⟨s1, -, -⟩ := hi.log.getMin_spec hf
  intro r hr
  rw [s1 hm, List.append_nil] at hr
  obtain ⟨h1, h2⟩ := hi.log.mark f fs hf r hr
  exact ⟨_, by rw [hfl, if_neg h1], h2⟩

/-- C74, while there is one log file: a number is given only when some record is not flushed.
    Missing: with further files that have no records the answer is the number after the last flushed one. -/
theorem C74_some_partial {db : DB K S} {h : List (Rec K)} (hr : Reach db h) (h1 : db.log.files.length = 1) {m : Nat}
    (hm : db.getMinSeqNum = some m) : ∃ r ∈ h, ∀ n, db.getLastFlushedSeqNum = some n → n < r.seq := by
  obtain ⟨A, B, rfl, hi⟩ := hr.inv
  obtain ⟨f, hf⟩ := List.length_eq_one_iff.1 h1
  have hfm : f ∈ db.log.files := by rw [hf]; simp
  have hfl : db.getLastFlushedSeqNum = _ := hi.log.lastFlushed_eq hf
  have hwf := hi.log.wf f hfm
  have hmx := hi.log.getMax_eq (fs := []) hf
  have hfn : db.log.minNum = f.num := by unfold LogMgr.minNum; rw [hf]
  have hfile : db.log.file? f.num = some f := hi.log.file?_mem hfm
  have hmn : db.log.maxNum = f.num := (hi.log.last_num (fs := []) hf).symm
  have hnext : db.log.file? (f.num + 1) = none := by
    unfold LogMgr.file?
    rw [hf]
    simp
  by_cases hB : B = []
  · exfalso
    subst hB
    have hget : db.getMinSeqNum = db.log.getMinSeqNum := rfl
    rw [hget] at hm
    unfold LogMgr.getMinSeqNum at hm
    rw [hi.log.getLastFlushedLog_eq, hfn, hfile] at hm
    dsimp only at hm
    rw [hnext, hmn] at hm
    by_cases hA : A = []
    · subst hA
      rw [hi.max0 rfl] at hmx
      have hmax : f.mem.maxSeqNum = NIL := by
        by_contra hc
        rw [if_pos hc] at hmx
        cases hmx
      have h2 : f.mem.flushedSeqNum = NIL := by
        rcases hwf.flushed with h | h
        · exact h
        · omega
      have h3 : f.mem.minSeqNum = NIL := (hwf.nil hmax).2
      rw [if_neg (by rw [valid_iff]; simpa using h2), if_neg (by rw [valid_iff]; simpa using h3), if_pos (Nat.le_refl _)] at hm
      cases hm
    · have hl := hi.maxS (by simpa using hA)
      rw [List.append_nil, List.getLast?_eq_getLast_of_ne_nil hA] at hl
      rw [hl] at hmx
      obtain ⟨e1, e2⟩ := hi.log.mark f [] hf _ (List.getLast_mem hA)
      have hmax : f.mem.maxSeqNum = (A.getLast hA).seq := by
        split at hmx
        · exact (Option.some.inj hmx).symm
        · cases hmx
      have h2 : f.mem.flushedSeqNum ≤ f.mem.maxSeqNum := by
        rcases hwf.flushed with h | h
        · exact absurd h e1
        · exact h.1
      rw [if_pos (valid_iff.2 e1), if_pos ⟨by omega, rfl⟩] at hm
      cases hm
  · obtain ⟨r, hr⟩ := List.exists_mem_of_ne_nil _ hB
    refine ⟨r, List.mem_append_right _ hr, fun n hn => ?_⟩
    rw [hfl] at hn
    split at hn
    · cases hn
    · next hne =>
      have hrp : r ∈ f.pending := by
        have := hr
        rw [hi.log.pend, hf] at this
        simpa using this
      have := (List.mem_filter.1 hrp).2
      simp only [valid_iff.2 hne, Bool.true_and, Bool.not_eq_true', decide_eq_false_iff_not] at this
      have := Option.some.inj hn
      omega

/-- C74, for numbers without gaps: once something is flushed and something is not, the answer is the number
    of a record. -/
theorem C74_exact_partial {db : DB K S} {h : List (Rec K)} (hr : Reach db h)
    (hd : ∀ r ∈ h, ∀ s, 0 < s → s ≤ r.seq → ∃ r' ∈ h, r'.seq = s)
    {m n : Nat} (hm : db.getMinSeqNum = some m) (hn : db.getLastFlushedSeqNum = some n) (hu : ∃ r ∈ h, n < r.seq) :
    ∃ r ∈ h, r.seq = m := by
  obtain ⟨b1, b2⟩ := C74_bound hr hm
  obtain ⟨r, hrh, hlt⟩ := hu
  have := b2 n hn
  exact hd r hrh m (by omega) (by omega)

namespace MinSeqEx
open IterEx SearchEx

/-- Flushed up to 2, one record in the log. -/
def m0 := (Cmd.start IterEx.c 1 (by decide) {} [.put 5 1, .put 6 2, .sync, .flush, .put 5 3]).get (by decide +kernel)
theorem mr0 : Reach m0.1 m0.2 := Cmd.start_reach plain (Option.some_get _).symm
/-- The same with a new log file for the third record. -/
def m1 := (Cmd.start IterEx.c 1 (by decide) {} [.put 5 1, .put 6 2, .sync, .flush, .put 5 3 true]).get (by decide +kernel)
theorem mr1 : Reach m1.1 m1.2 := Cmd.start_reach plain (Option.some_get _).symm
/-- Everything flushed. -/
def m2 := (Cmd.start IterEx.c 1 (by decide) {} [.put 5 1, .put 6 2, .sync, .flush]).get (by decide +kernel)
theorem mr2 : Reach m2.1 m2.2 := Cmd.start_reach plain (Option.some_get _).symm
/-- Numbers the writer chose. -/
def m3 := (Cmd.start IterEx.c 1 (by decide) {} [.putSN 10 5 1, .sync, .flush, .putSN 20 6 2]).get (by decide +kernel)
theorem mr3 : Reach m3.1 m3.2 := Cmd.start_reach plain (Option.some_get _).symm

example : m0.1.getMinSeqNum = some 3 ∧ m0.1.getLastFlushedSeqNum = some 2 ∧ m0.1.log.files.length = 1 ∧
    m0.2.map (·.seq) = [1, 2, 3] := by decide +kernel
example : m1.1.getMinSeqNum = some 3 ∧ m1.1.log.files.length = 2 := by decide +kernel
example : m2.1.getMinSeqNum = none ∧ m2.2.map (·.seq) = [1, 2] := by decide +kernel

end MinSeqEx

open MinSeqEx IterEx in
/-- C74 violation: with numbers the writer chose, the answer is the number of no record. -/
theorem C74_gap_violation : ∃ (db : DB Nat (Lsm IterEx.c 1 (by decide))) (h : List (Rec Nat)), Reach db h ∧
    db.getMinSeqNum = some 11 ∧ (db.getRecord 11).1 ≠ .ok ∧ ∀ r ∈ h, r.seq ≠ 11 :=
  ⟨m3.1, m3.2, mr3, by decide +kernel, by decide +kernel, by decide +kernel⟩

end Jungle
